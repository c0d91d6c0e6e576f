import Mathlib.Algebra.Order.BigOperators.Ring.Finset
import Mathlib.Algebra.Order.BigOperators.Group.Finset
import Mathlib.Tactic.Positivity
import Mathlib.Tactic.FieldSimp
import Mathlib.Tactic.NormNum
import Mathlib.Tactic.GCongr
import Verif.Spec.Accuracy
import Verif.Proofs.Linear

/-!
# Gain, DC gain and affine signals
-/

set_option linter.unusedSectionVars false

namespace Panda

open Finset

section tables

variable {K : Type} [Sample K]

/-- The FIR stage made from a table. -/
def firStage (m : Mode) (vec : Bool) (t : List Dec) : Stage K :=
  match m with
  | .up => .firUp vec (t.map fun d => Sample.ofDouble (d.toRat * 2))
  | .down => .firDown vec (t.map fun d => Sample.ofDouble (d.toRat * 1))

theorem Config.stages_eq_tables {cfg : Config} (hv : cfg.Valid) (hf : cfg.filter = .fir) :
    cfg.stages (F := K) = cfg.tables.map (firStage cfg.mode cfg.vec) := by
  have key : ∀ k ∈ [2, 4, 8], cfg.stage (F := K) k = [firStage cfg.mode cfg.vec ((firTable k cfg.precision).getD [])] := by
    intro k hk
    obtain ⟨t, ht⟩ := Option.isSome_iff_exists.1 (tables_exist hk hv.precision).1
    unfold Config.stage
    rw [hf, ht]
    cases cfg.mode <;> rfl
  have gen : ∀ l : List ℕ, (∀ k ∈ l, k ∈ [2, 4, 8]) → (l.map (cfg.stage (F := K))).flatten =
      (l.map fun k => (firTable k cfg.precision).getD []).map (firStage cfg.mode cfg.vec) := by
    intro l hl
    induction l with
    | nil => rfl
    | cons a l ih =>
      simp only [List.map_cons, List.flatten_cons]
      rw [ih fun k hk => hl k (by simp [hk]), key a (hl a (by simp))]
      rfl
  unfold Config.stages Config.tables
  cases hm : cfg.mode <;> simp only <;> rw [gen, hm] <;> intro k hk <;> simp only [List.mem_filter] at hk <;>
    have := hk.1 <;> simp only [List.mem_cons, List.not_mem_nil, or_false] at this ⊢ <;> omega

end tables

section ring

variable {K : Type} [CommRing K] [Sample K]

theorem sum_seq (l : List K) (f : K → K) : ∑ i ∈ range l.length, f (seq l i) = (l.map f).sum := by
  induction l with
  | nil => rfl
  | cons a l ih =>
    rw [List.length_cons, sum_range_succ']
    simp only [List.map_cons, List.sum_cons]
    rw [add_comm]
    congr 1

theorem seq_lt {l : List K} {n : ℕ} (h : n < l.length) : seq l n = l[n] := by
  simp [seq, List.getD_eq_getElem?_getD, h]

theorem seq_ge {l : List K} {n : ℕ} (h : l.length ≤ n) : seq l n = 0 := by
  simp [seq, List.getD_eq_getElem?_getD, h]

end ring

variable {K : Type} [Field K] [LinearOrder K] [IsStrictOrderedRing K] [Sample K]

/-! ## Sums over taps -/

theorem list_abs_sum_le (l : List K) : |l.sum| ≤ (l.map fun x => |x|).sum := by
  induction l with
  | nil => simp
  | cons a l ih =>
    simp only [List.sum_cons, List.map_cons]
    exact (abs_add_le _ _).trans (by gcongr)

/-- Sum of the absolute values of the taps. -/
def tapAbs (t : List K) : K := ∑ i ∈ range t.length, |seq t i|

/-- Sum of the taps. -/
def tapSum (t : List K) : K := ∑ i ∈ range t.length, seq t i

theorem tapAbs_nonneg (t : List K) : 0 ≤ tapAbs t := sum_nonneg fun _ _ => abs_nonneg _

theorem abs_fir_le (t : List K) (f : ℕ → K) {M : K} (h : ∀ i < t.length, |f i| ≤ M) :
    |∑ i ∈ range t.length, seq t i * f i| ≤ tapAbs t * M := by
  unfold tapAbs
  refine (abs_sum_le_sum_abs _ _).trans ?_
  rw [sum_mul]
  refine sum_le_sum fun i hi => ?_
  rw [abs_mul]
  exact mul_le_mul_of_nonneg_left (h i (mem_range.1 hi)) (abs_nonneg _)

/-- Gain bound of a FIR stage. -/
def Stage.HasGain : Stage K → K → Prop
  | .firUp _ t, G => tapAbs t ≤ G ∧ 1 ≤ G
  | .firDown _ t, G => tapAbs t + |Sample.half| ≤ G
  | _, _ => False

/-- DC error bound of a FIR stage. -/
def Stage.HasErr : Stage K → K → Prop
  | .firUp _ t, E => |tapSum t - 1| ≤ E
  | .firDown _ t, E => |tapSum t + Sample.half - 1| ≤ E
  | _, _ => False

theorem Stage.HasGain.nonneg {s : Stage K} {G : K} (h : s.HasGain G) : 0 ≤ G := by
  cases s with
  | firUp v t => exact (tapAbs_nonneg t).trans h.1
  | firDown v t => exact (add_nonneg (tapAbs_nonneg t) (abs_nonneg _)).trans h
  | iirUp v t => exact h.elim
  | iirDown v t => exact h.elim

theorem abs_zext_le {x : ℕ → K} {M : K} (hM : 0 ≤ M) (h : ∀ n, |x n| ≤ M) (z : ℤ) : |zext x z| ≤ M := by
  unfold zext
  split
  · exact h _
  · simpa using hM

theorem Stage.HasGain.bound {s : Stage K} {G : K} (h : s.HasGain G) {x : ℕ → K} {M : K} (hM : 0 ≤ M) (hx : ∀ n, |x n| ≤ M)
    (n : ℕ) : |s.op x n| ≤ G * M := by
  cases s with
  | firUp v t =>
    simp only [Stage.op, firUpOp]
    split
    · refine (abs_fir_le t _ fun i _ => abs_zext_le hM hx _).trans ?_
      exact mul_le_mul_of_nonneg_right h.1 hM
    · refine (abs_zext_le hM hx _).trans ?_
      nlinarith [h.2]
  | firDown v t =>
    simp only [Stage.op, firDownOp]
    refine (abs_add_le _ _).trans ?_
    refine (add_le_add (abs_fir_le t _ fun i _ => abs_zext_le hM hx _)
      (show _ ≤ |(Sample.half : K)| * M from ?_)).trans ?_
    · rw [abs_mul]
      exact mul_le_mul_of_nonneg_left (abs_zext_le hM hx _) (abs_nonneg _)
    · rw [← add_mul]
      exact mul_le_mul_of_nonneg_right h hM
  | iirUp v t => exact h.elim
  | iirDown v t => exact h.elim

/-- Gains of all stages. -/
inductive Gains : List (Stage K) → List K → Prop where
  | nil : Gains [] []
  | cons {s ss G Gs} : Stage.HasGain s G → Gains ss Gs → Gains (s :: ss) (G :: Gs)

theorem cascadeOp_bound {ss : List (Stage K)} {Gs : List K} (h : Gains ss Gs) {x : ℕ → K} {M : K} (hM : 0 ≤ M)
    (hx : ∀ n, |x n| ≤ M) (n : ℕ) : |cascadeOp ss x n| ≤ Gs.prod * M := by
  induction h generalizing x M with
  | nil => simpa [cascadeOp] using hx n
  | @cons s ss G Gs h _ ih =>
    have := ih (mul_nonneg h.nonneg hM) (h.bound hM hx)
    rw [List.prod_cons]
    calc _ ≤ Gs.prod * (G * M) := this
      _ = G * Gs.prod * M := by ring

/-! ## Nearly constant signals -/

/-- From some time on `x` is within `δ` of the constant `c`. -/
def NearConst (x : ℕ → K) (c δ : K) (N : ℕ) : Prop := ∀ n ≥ N, |x n - c| ≤ δ

/-- First output index for which the filter sees input from index `N` on only. -/
def Stage.settle (s : Stage K) (N : ℕ) : ℕ := if s.up then 2 * (N + (s.ntaps - 1)) else (N + 1) / 2 + (s.ntaps - 1)

theorem zext_of_nonneg (x : ℕ → K) {z : ℤ} (h : 0 ≤ z) : zext x z = x z.toNat := by
  unfold zext
  rw [if_pos h]

theorem Stage.nearConst {s : Stage K} {G E : K} (hG : s.HasGain G) (hE : s.HasErr E)
    (ht : ∀ v t, s = .firUp v t ∨ s = .firDown v t → 2 ≤ t.length) {x : ℕ → K} {c δ : K} {N : ℕ} (hx : NearConst x c δ N) :
    NearConst (s.op x) c (G * δ + E * |c|) (s.settle N) := by
  intro n hn
  have hδ : 0 ≤ δ := (abs_nonneg _).trans (hx N le_rfl)
  have key : ∀ (t : List K) (f : ℕ → K), (∀ i < t.length, |f i - c| ≤ δ) →
      ∑ i ∈ range t.length, seq t i * f i = ∑ i ∈ range t.length, seq t i * (f i - c) + tapSum t * c := by
    intro t f _
    unfold tapSum
    rw [sum_mul, ← sum_add_distrib]
    exact sum_congr rfl fun i _ => by ring
  cases s with
  | firUp v t =>
    have ht := ht _ _ (Or.inl rfl)
    simp only [Stage.settle, Stage.up, Stage.ntaps, if_true] at hn
    have hE : |tapSum t - 1| ≤ E := hE
    have hE0 : 0 ≤ E := (abs_nonneg _).trans hE
    have hz : ∀ z : ℤ, (N : ℤ) ≤ z → |zext x z - c| ≤ δ := by
      intro z hz
      rw [zext_of_nonneg _ (by omega)]
      exact hx _ (by omega)
    simp only [Stage.op, firUpOp]
    split
    · have hb : ∀ i < t.length, |zext x ((n / 2 : ℕ) - ((t.length : ℤ) - 1) + i) - c| ≤ δ := fun i hi => hz _ (by omega)
      rw [key t _ hb]
      calc _ = |∑ i ∈ range t.length, seq t i * (zext x ((n / 2 : ℕ) - ((t.length : ℤ) - 1) + i) - c) + (tapSum t - 1) * c| := by
            congr 1; ring
        _ ≤ tapAbs t * δ + |tapSum t - 1| * |c| := by
            refine (abs_add_le _ _).trans (add_le_add (abs_fir_le t _ hb) ?_)
            rw [abs_mul]
        _ ≤ G * δ + E * |c| := by
            gcongr
            exact hG.1
    · calc _ ≤ δ := hz _ (by omega)
        _ ≤ G * δ + E * |c| := by
          have := hG.2
          have h1 : 1 * δ ≤ G * δ := mul_le_mul_of_nonneg_right this hδ
          have h2 : 0 ≤ E * |c| := mul_nonneg hE0 (abs_nonneg _)
          linarith
  | firDown v t =>
    have ht := ht _ _ (Or.inr rfl)
    simp only [Stage.settle, Stage.up, Stage.ntaps] at hn
    have hn : (N + 1) / 2 + (t.length - 1) ≤ n := by simpa using hn
    have hE : |tapSum t + Sample.half - 1| ≤ E := hE
    have hz : ∀ z : ℤ, (N : ℤ) ≤ z → |zext x z - c| ≤ δ := by
      intro z hz
      rw [zext_of_nonneg _ (by omega)]
      exact hx _ (by omega)
    simp only [Stage.op, firDownOp]
    have hb : ∀ i < t.length, |zext x (2 * (n - ((t.length : ℤ) - 1) + i)) - c| ≤ δ := fun i hi => hz _ (by omega)
    have ho : |zext x (2 * (n - ((t.length : ℤ) - 1) + (t.length / 2 : ℕ) - 1) + 1) - c| ≤ δ := hz _ (by omega)
    rw [key t _ hb]
    calc _ = |∑ i ∈ range t.length, seq t i * (zext x (2 * (n - ((t.length : ℤ) - 1) + i)) - c) +
            Sample.half * (zext x (2 * (n - ((t.length : ℤ) - 1) + (t.length / 2 : ℕ) - 1) + 1) - c) +
            (tapSum t + Sample.half - 1) * c| := by congr 1; ring
      _ ≤ tapAbs t * δ + |Sample.half| * δ + |tapSum t + Sample.half - 1| * |c| := by
          refine (abs_add_le _ _).trans (add_le_add ((abs_add_le _ _).trans (add_le_add (abs_fir_le t _ hb) ?_)) ?_)
          · rw [abs_mul]
            exact mul_le_mul_of_nonneg_left ho (abs_nonneg _)
          · rw [abs_mul]
      _ ≤ G * δ + E * |c| := by
          rw [← add_mul]
          gcongr
          exact hG
  | iirUp v t => exact hE.elim
  | iirDown v t => exact hE.elim

/-- Gains and errors of all stages. -/
inductive GainErrs : List (Stage K) → List (K × K) → Prop where
  | nil : GainErrs [] []
  | cons {s ss G E l} : Stage.HasGain s G → Stage.HasErr s E → GainErrs ss l → GainErrs (s :: ss) ((G, E) :: l)

/-- First settled output index of a cascade. -/
def cascadeSettle : List (Stage K) → ℕ → ℕ
  | [], N => N
  | s :: ss, N => cascadeSettle ss (s.settle N)

theorem cascadeOp_nearConst {ss : List (Stage K)} {l : List (K × K)} (h : GainErrs ss l)
    (ht : ∀ s ∈ ss, ∀ v t, s = .firUp v t ∨ s = .firDown v t → 2 ≤ t.length) {x : ℕ → K} {c δ : K} {N : ℕ}
    (hx : NearConst x c (δ * |c|) N) :
    NearConst (cascadeOp ss x) c (l.foldl (fun δ p => p.1 * δ + p.2) δ * |c|) (cascadeSettle ss N) := by
  induction h generalizing x δ N with
  | nil => exact hx
  | @cons s ss G E l hG hE _ ih =>
    refine ih (fun s hs => ht s (by simp [hs])) ?_
    have := Stage.nearConst hG hE (ht s (by simp)) hx
    rwa [← mul_assoc, ← add_mul] at this

/-! ## From the tables -/

theorem sum_map_sub (t : List Dec) (f g : Dec → K) : (t.map f).sum - (t.map g).sum = (t.map fun d => f d - g d).sum := by
  induction t with
  | nil => simp
  | cons a t ih => simp only [List.map_cons, List.sum_cons, ← ih]; ring

theorem sum_map_le (t : List Dec) (f g : Dec → K) (h : ∀ d, f d ≤ g d) : (t.map f).sum ≤ (t.map g).sum := by
  induction t with
  | nil => simp
  | cons a t ih => simp only [List.map_cons, List.sum_cons]; exact add_le_add (h a) ih

theorem cast_sum (t : List Dec) (f : Dec → ℚ) : (((t.map f).sum : ℚ) : K) = (t.map fun d => ((f d : ℚ) : K)).sum := by
  induction t with
  | nil => simp
  | cons a t ih => simp only [List.map_cons, List.sum_cons]; push_cast; rw [ih]

section acc
variable [Accurate K]

theorem tapAbs_le (t : List Dec) (q : ℚ) :
    tapAbs (t.map fun d => (Sample.ofDouble (d.toRat * q) : K)) ≤
      (((1 + 2⁻¹ ^ 24) * (t.map fun d => |d.toRat * q|).sum : ℚ) : K) := by
  have h := sum_seq (t.map fun d => (Sample.ofDouble (d.toRat * q) : K)) (fun x => |x|)
  unfold tapAbs
  rw [h, List.map_map]
  push_cast
  rw [cast_sum, ← List.sum_map_mul_left]
  refine sum_map_le t _ _ fun d => ?_
  simp only [Function.comp]
  have h1 := Accurate.ofDouble (K := K) (d.toRat * q)
  have h2 := abs_add_le ((Sample.ofDouble (d.toRat * q) : K) - ((d.toRat * q : ℚ) : K)) ((d.toRat * q : ℚ) : K)
  rw [sub_add_cancel] at h2
  rw [Rat.cast_abs, add_mul, one_mul]
  linarith

theorem tapSum_near (t : List Dec) (q : ℚ) :
    |tapSum (t.map fun d => (Sample.ofDouble (d.toRat * q) : K)) - (((t.map fun d => d.toRat * q).sum : ℚ) : K)| ≤
      ((2⁻¹ ^ 24 * (t.map fun d => |d.toRat * q|).sum : ℚ) : K) := by
  have h := sum_seq (t.map fun d => (Sample.ofDouble (d.toRat * q) : K)) (fun x => x)
  unfold tapSum
  rw [h, List.map_map, cast_sum, sum_map_sub]
  refine (list_abs_sum_le _).trans ?_
  rw [List.map_map]
  push_cast
  rw [cast_sum, ← List.sum_map_mul_left]
  refine sum_map_le t _ _ fun d => ?_
  have := Accurate.ofDouble (K := K) (d.toRat * q)
  simp only [Function.comp, Rat.cast_abs]
  push_cast at this ⊢
  exact this

theorem half_sum (t : List Dec) : (t.map fun d => d.toRat * 1).sum = dcSum t / 2 := by
  unfold dcSum
  induction t with
  | nil => simp
  | cons a t ih => simp only [List.map_cons, List.sum_cons]; rw [ih]; ring

theorem half_abs (t : List Dec) : (t.map fun d => |d.toRat * 1|).sum = absSum t / 2 := by
  unfold absSum
  induction t with
  | nil => simp
  | cons a t ih => simp only [List.map_cons, List.sum_cons]; rw [ih, abs_mul, abs_mul]; norm_num; ring

theorem firStage_gain (m : Mode) (vec : Bool) (t : List Dec) : (firStage (K := K) m vec t).HasGain (stageGain m t : ℚ) := by
  cases m with
  | up =>
    refine ⟨?_, ?_⟩
    · refine (tapAbs_le t 2).trans ?_
      exact_mod_cast le_max_right _ _
    · exact_mod_cast le_max_left (1 : ℚ) _
  | down =>
    show tapAbs _ + |Sample.half| ≤ _
    have h := tapAbs_le (K := K) t 1
    rw [half_abs] at h
    rw [Accurate.half (K := K)]
    rw [abs_of_nonneg (by norm_num : (0 : K) ≤ 1 / 2)]
    have : ((stageGain .down t : ℚ) : K) = (((1 + 2⁻¹ ^ 24) * (absSum t / 2) : ℚ) : K) + 1 / 2 := by
      rw [stageGain]; push_cast; ring
    rw [this]
    gcongr

theorem firStage_err (m : Mode) (vec : Bool) (t : List Dec) : (firStage (K := K) m vec t).HasErr (stageErr m t : ℚ) := by
  cases m with
  | up =>
    show |tapSum _ - 1| ≤ _
    have h := tapSum_near (K := K) t 2
    have : ((stageErr .up t : ℚ) : K) = |((dcSum t : ℚ) : K) - 1| + ((2⁻¹ ^ 24 * absSum t : ℚ) : K) := by
      rw [stageErr]; push_cast; ring
    rw [this, ← sub_add_sub_cancel _ ((dcSum t : ℚ) : K) (1 : K), add_comm |_|]
    refine (abs_add_le _ _).trans ?_
    gcongr
    exact h
  | down =>
    show |tapSum _ + Sample.half - 1| ≤ _
    have h := tapSum_near (K := K) t 1
    rw [half_sum, half_abs] at h
    rw [Accurate.half (K := K)]
    have : ((stageErr .down t : ℚ) : K) = |((dcSum t / 2 : ℚ) : K) - 1 / 2| + ((2⁻¹ ^ 24 * (absSum t / 2) : ℚ) : K) := by
      rw [stageErr]; push_cast
      have : ((dcSum t : ℚ) : K) / 2 - 1 / 2 = (((dcSum t : ℚ) : K) - 1) / 2 := by ring
      rw [this, abs_div, abs_of_pos (by norm_num : (0 : K) < 2)]
      ring
    rw [this, add_comm |_|]
    have e : ∀ y : K, y + 1 / 2 - 1 = (y - ((dcSum t / 2 : ℚ) : K)) + (((dcSum t / 2 : ℚ) : K) - 1 / 2) := fun y => by ring
    rw [e]
    refine (abs_add_le _ _).trans ?_
    gcongr

end acc

theorem Config.op_bound [Accurate K] {cfg : Config} (hv : cfg.Valid) (hf : cfg.filter = .fir) {x : ℕ → K} {M : K} (hM : 0 ≤ M)
    (hx : ∀ n, |x n| ≤ M) (n : ℕ) : |cfg.op x n| ≤ (cfg.gain : ℚ) * M := by
  have hg : Gains (cfg.stages (F := K)) (cfg.tables.map fun t => ((stageGain cfg.mode t : ℚ) : K)) := by
    rw [Config.stages_eq_tables hv hf]
    generalize cfg.tables = l
    induction l with
    | nil => exact .nil
    | cons t l ih => exact .cons (firStage_gain _ _ _) ih
  have := cascadeOp_bound hg hM hx n
  unfold Config.op Config.gain
  have e : ∀ l : List (List Dec), (((l.map (stageGain cfg.mode)).prod : ℚ) : K) =
      (l.map fun t => ((stageGain cfg.mode t : ℚ) : K)).prod := by
    intro l
    induction l with
    | nil => simp
    | cons t l ih => simp only [List.map_cons, List.prod_cons]; push_cast; rw [ih]
  rw [e]
  exact this

theorem Config.op_nearConst [Accurate K] {cfg : Config} (hv : cfg.Valid) (hf : cfg.filter = .fir) {x : ℕ → K} {c : K} {N : ℕ}
    (hx : ∀ n ≥ N, x n = c) : NearConst (cfg.op x) c ((cfg.dcErr : ℚ) * |c|) (cascadeSettle (cfg.stages (F := K)) N) := by
  have hg : GainErrs (cfg.stages (F := K)) (cfg.tables.map fun t => (((stageGain cfg.mode t : ℚ) : K), ((stageErr cfg.mode t : ℚ) : K))) := by
    rw [Config.stages_eq_tables hv hf]
    generalize cfg.tables = l
    induction l with
    | nil => exact .nil
    | cons t l ih => exact .cons (firStage_gain _ _ _) (firStage_err _ _ _) ih
  have := cascadeOp_nearConst hg (fun s hs v t e => (Config.stages_taps s hs v t e).1) (x := x) (c := c) (δ := 0) (N := N) (by
    intro n hn
    rw [hx n hn]
    simp)
  have e : ∀ (l : List (List Dec)) (δ : ℚ), ((l.foldl (fun δ t => stageGain cfg.mode t * δ + stageErr cfg.mode t) δ : ℚ) : K) =
      (l.map fun t => (((stageGain cfg.mode t : ℚ) : K), ((stageErr cfg.mode t : ℚ) : K))).foldl (fun δ p => p.1 * δ + p.2) (δ : K) := by
    intro l
    induction l with
    | nil => intro δ; rfl
    | cons t l ih =>
      intro δ
      simp only [List.foldl_cons, List.map_cons]
      rw [ih]
      push_cast
      rfl
  unfold Config.dcErr Config.op
  rw [e]
  simpa using this

end Panda

namespace Panda

open Finset

section affine

variable {K : Type} [Field K] [CharZero K] [Sample K]

/-- The output of a session only depends on the samples passed in. -/
theorem Config.session_op_of {cfg : Config} (hv : cfg.Valid) {ops : List (Op K)} (hc : ∀ op ∈ ops, cfg.OpOk op)
    {r : Resampler K} {os : List (Option (Buf K))} (h : cfg.session ops = .ok (r, os)) {x : ℕ → K}
    (hx : ∀ i < (fed ops).length, x i = seq (fed ops) i) :
    ∀ n < (cfg.produced ops os).length, seq (cfg.produced ops os) n = cfg.op x n := by
  intro n hn
  obtain ⟨hl, ho⟩ := Config.session_op hv hc h
  rw [ho n hn]
  refine cascadeOp_causal (k := (fed ops).length) (fun s hs v t e => (Config.stages_taps s hs v t e).1)
    (fun i hi => (hx i hi).symm) n ?_
  rw [Config.cascadeN hv, ← hl]
  exact hn

theorem palindrome_moment (t : List K) (h : t.reverse = t) :
    2 * ∑ i ∈ range t.length, seq t i * (i : K) = ((t.length : K) - 1) * ∑ i ∈ range t.length, seq t i := by
  have hr : ∀ i < t.length, seq t (t.length - 1 - i) = seq t i := by
    intro i hi
    conv_rhs => rw [← h]
    simp only [seq, List.getD_eq_getElem?_getD]
    rw [List.getElem?_reverse hi]
  have h1 : ∑ i ∈ range t.length, seq t i * (i : K) = ∑ i ∈ range t.length, seq t i * ((t.length : K) - 1 - i) := by
    rw [← sum_range_reflect]
    refine sum_congr rfl fun i hi => ?_
    have hi := mem_range.1 hi
    rw [hr i hi, Nat.sub_sub, Nat.cast_sub (by omega)]
    push_cast
    ring
  rw [two_mul]
  nth_rw 2 [h1]
  rw [← sum_add_distrib, mul_sum]
  exact sum_congr rfl fun i _ => by ring

theorem firDown_affine {t : List K} (h2 : 2 ≤ t.length) (he : t.length % 2 = 0) (hp : t.reverse = t) (hf : K) {x : ℕ → K}
    {c s d : K} {N : ℕ} (hx : ∀ n ≥ N, x n = c + s * ((n : K) - d)) (m : ℕ) (hm : (N + 1) / 2 + (t.length - 1) ≤ m) :
    firDownOp t.length (seq t) hf x m =
      (∑ i ∈ range t.length, seq t i + hf) * (c + 2 * s * ((m : K) - (((t.length : K) - 1) / 2 + d / 2))) := by
  have hz : ∀ z : ℤ, (N : ℤ) ≤ z → zext x z = c + s * ((z : K) - d) := by
    intro z hz
    unfold zext
    rw [if_pos (by omega), hx _ (by omega)]
    have : ((z.toNat : ℕ) : K) = ((z.toNat : ℤ) : K) := by push_cast; rfl
    rw [this, Int.toNat_of_nonneg (by omega)]
  unfold firDownOp
  rw [hz _ (by omega), sum_congr rfl fun i hi => by rw [hz _ (by have := mem_range.1 hi; omega)]]
  have key := palindrome_moment t hp
  have e1 : ∑ i ∈ range t.length, seq t i * (c + s * (((2 * ((m : ℤ) - ((t.length : ℤ) - 1) + (i : ℤ)) : ℤ) : K) - d)) =
      (∑ i ∈ range t.length, seq t i) * (c + s * (2 * ((m : K) - ((t.length : K) - 1)) - d)) +
      s * (2 * ∑ i ∈ range t.length, seq t i * (i : K)) := by
    rw [sum_mul, mul_sum, mul_sum, ← sum_add_distrib]
    refine sum_congr rfl fun i _ => ?_
    push_cast
    ring
  rw [e1, key]
  obtain ⟨l, hl⟩ : 2 ∣ t.length := Nat.dvd_of_mod_eq_zero he
  rw [show t.length / 2 = l by omega, hl]
  push_cast
  ring

theorem firUp_affine {t : List K} (h2 : 2 ≤ t.length) (he : t.length % 2 = 0) (hp : t.reverse = t) {x : ℕ → K}
    {c s d : K} {N : ℕ} (hx : ∀ n ≥ N, x n = c + s * ((n : K) - d)) (n : ℕ) (hn : 2 * (N + t.length) ≤ n) :
    firUpOp t.length (seq t) x n =
      (if n % 2 = 0 then ∑ i ∈ range t.length, seq t i else 1) * (c + s / 2 * ((n : K) - (((t.length : K) - 1) + 2 * d))) := by
  have hz : ∀ z : ℤ, (N : ℤ) ≤ z → zext x z = c + s * ((z : K) - d) := by
    intro z hz
    unfold zext
    rw [if_pos (by omega), hx _ (by omega)]
    have : ((z.toNat : ℕ) : K) = ((z.toNat : ℤ) : K) := by push_cast; rfl
    rw [this, Int.toNat_of_nonneg (by omega)]
  have key := palindrome_moment t hp
  unfold firUpOp
  by_cases hpar : n % 2 = 0
  · rw [if_pos hpar, if_pos hpar, sum_congr rfl fun i hi => by rw [hz _ (by have := mem_range.1 hi; omega)]]
    obtain ⟨q, rfl⟩ : 2 ∣ n := Nat.dvd_of_mod_eq_zero hpar
    have e1 : ∑ i ∈ range t.length, seq t i * (c + s * (((((2 * q / 2 : ℕ) : ℤ) - ((t.length : ℤ) - 1) + (i : ℤ) : ℤ) : K) - d)) =
        (∑ i ∈ range t.length, seq t i) * (c + s * (((q : K) - ((t.length : K) - 1)) - d)) +
        s / 2 * (2 * ∑ i ∈ range t.length, seq t i * (i : K)) := by
      rw [Nat.mul_div_cancel_left _ (by norm_num), sum_mul, mul_sum, mul_sum, ← sum_add_distrib]
      refine sum_congr rfl fun i _ => ?_
      push_cast
      ring
    rw [e1, key]
    push_cast
    ring
  · rw [if_neg hpar, if_neg hpar, hz _ (by omega)]
    obtain ⟨q, rfl⟩ : ∃ q, n = 2 * q + 1 := ⟨n / 2, by omega⟩
    obtain ⟨l, hl⟩ : 2 ∣ t.length := Nat.dvd_of_mod_eq_zero he
    rw [show (2 * q + 1) / 2 = q by omega, show t.length / 2 = l by omega, hl]
    push_cast
    ring

theorem firTable_palindrome : ∀ k ∈ [2, 4, 8], ∀ p ∈ [1, 8, 12, 16, 20, 24],
    ((firTable k p).getD []).reverse = (firTable k p).getD [] := by decide +kernel

/-- DC gain of a FIR downsampling stage. -/
def Stage.downGain : Stage K → K
  | .firDown _ t => ∑ i ∈ range t.length, seq t i + Sample.half
  | _ => 1

/-- A FIR downsampling stage as the tables describe them. -/
def Stage.Sym (s : Stage K) : Prop := ∃ v t, s = .firDown v t ∧ 2 ≤ t.length ∧ t.length % 2 = 0 ∧ t.reverse = t

/-- Delay of a cascade of FIR downsampling stages in output samples, when the input is already late by `d`. -/
def downDelay : List (Stage K) → K → K
  | [], d => d
  | s :: ss, d => downDelay ss ((((s.ntaps : ℕ) : K) - 1) / 2 + d / 2)

theorem cascadeOp_affine {ss : List (Stage K)} (hs : ∀ s ∈ ss, s.Sym) {x : ℕ → K} {c b d : K} {N : ℕ}
    (hx : ∀ n ≥ N, x n = c + b * ((n : K) - d)) :
    ∀ m ≥ cascadeSettle ss N, cascadeOp ss x m =
      (ss.map Stage.downGain).prod * (c + 2 ^ ss.length * b * ((m : K) - downDelay ss d)) := by
  suffices h : ∀ (ss : List (Stage K)) (_ : ∀ s ∈ ss, s.Sym) (G : K) (x : ℕ → K) (b d : K) (N : ℕ)
      (_ : ∀ n ≥ N, x n = G * (c + b * ((n : K) - d))), ∀ m ≥ cascadeSettle ss N, cascadeOp ss x m =
      G * (ss.map Stage.downGain).prod * (c + 2 ^ ss.length * b * ((m : K) - downDelay ss d)) by
    intro m hm
    have := h ss hs 1 x b d N (fun n hn => by rw [hx n hn, one_mul]) m hm
    rwa [one_mul] at this
  intro ss
  induction ss with
  | nil =>
    intro _ G x b d N hx m hm
    simp only [cascadeOp, downDelay, List.map_nil, List.prod_nil, List.length_nil, pow_zero, mul_one, one_mul]
    exact hx m hm
  | cons s ss ih =>
    intro hs G x b d N hx m hm
    obtain ⟨v, t, rfl, h2, he, hp⟩ := hs s (by simp)
    have := ih (fun s h => hs s (by simp [h])) (G * Stage.downGain (.firDown v t)) (Stage.op (.firDown v t) x) (2 * b)
      ((((t.length : ℕ) : K) - 1) / 2 + d / 2) (Stage.settle (.firDown v t) N) (by
        intro n hn
        have hn : (N + 1) / 2 + (t.length - 1) ≤ n := by simpa [Stage.settle, Stage.up, Stage.ntaps] using hn
        have := firDown_affine h2 he hp Sample.half (x := x) (c := G * c) (s := G * b) (d := d) (N := N)
          (fun n hn => by rw [hx n hn]; ring) n hn
        simp only [Stage.op, Stage.downGain]
        rw [this]
        ring) m hm
    simp only [cascadeOp, downDelay, List.map_cons, List.prod_cons, List.length_cons, Stage.ntaps]
    rw [this]
    ring

theorem Config.stages_sym {cfg : Config} (hv : cfg.Valid) (hf : cfg.filter = .fir) (hm : cfg.mode = .down) :
    ∀ s ∈ cfg.stages (F := K), s.Sym := by
  intro s hs
  have hl := Config.stages_taps s hs
  unfold Config.stages at hs
  simp only [hm, List.mem_flatten, List.mem_map, List.mem_filter] at hs
  obtain ⟨l, ⟨k, ⟨hk, -⟩, rfl⟩, hs⟩ := hs
  have hk : k ∈ [2, 4, 8] := by simp at hk ⊢; omega
  obtain ⟨t, ht⟩ := Option.isSome_iff_exists.1 (tables_exist hk hv.precision).1
  have hpal := firTable_palindrome k hk _ hv.precision
  rw [ht] at hpal
  unfold Config.stage at hs
  simp only [hf, hm, ht, Option.toList, List.map_cons, List.map_nil, List.mem_singleton] at hs
  subst hs
  have := hl _ _ (Or.inr rfl)
  refine ⟨_, _, rfl, this.1, this.2, ?_⟩
  rw [← List.map_reverse, show t.reverse = t from hpal]

theorem cascadeSettle_mono {ss : List (Stage K)} : ∀ {a b : ℕ}, a ≤ b → cascadeSettle ss a ≤ cascadeSettle ss b := by
  induction ss with
  | nil => exact id
  | cons s ss ih =>
    intro a b h
    refine ih ?_
    unfold Stage.settle
    split <;> omega

/-- Settled from output sample `ratio * (N + 63)` or `N / ratio + 65` on. -/
theorem Config.settle_le {cfg : Config} (hv : cfg.Valid) (hf : cfg.filter = .fir) (N : ℕ) :
    cascadeSettle (cfg.stages (F := K)) N ≤ match cfg.mode with | .up => cfg.ratio * (N + 63) | .down => N / cfg.ratio + 65 := by
  have lens : ∀ p ∈ [1, 8, 12, 16, 20, 24], ((firTable 2 p).getD []).length ≤ 52 ∧ ((firTable 4 p).getD []).length ≤ 16 ∧
    ((firTable 8 p).getD []).length ≤ 12 := by decide +kernel
  have hl := lens _ hv.precision
  obtain ⟨s2, s4, s8, h2, h4, h8, h⟩ := Config.stages_cases (F := K) hv
  have n2 := (Config.stage_ntaps hv hf (by simp) h2).1
  have n4 := (Config.stage_ntaps hv hf (by simp) h4).1
  have n8 := (Config.stage_ntaps hv hf (by simp) h8).1
  have hup := Config.stages_up (cfg := cfg) (K := K)
  rcases h with ⟨hr, h⟩ | ⟨hr, h⟩ | ⟨hr, hm, h⟩ | ⟨hr, hm, h⟩ | ⟨hr, hm, h⟩ | ⟨hr, hm, h⟩ <;> rw [h] at hup <;> rw [h, hr]
  · cases cfg.mode <;> simp [cascadeSettle]
  · cases hm : cfg.mode <;> simp [hm] at hup <;> simp [cascadeSettle, Stage.settle, hup] <;> omega
  all_goals
    simp only [hm] at hup ⊢
    simp at hup
    simp [cascadeSettle, Stage.settle, hup]
    omega

end affine

end Panda
