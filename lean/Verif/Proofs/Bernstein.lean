import Mathlib.Algebra.Order.Field.Basic
import Mathlib.Data.Real.Basic
import Mathlib.Tactic.Ring
import Mathlib.Tactic.FieldSimp
import Mathlib.Tactic.Linarith
import Mathlib.Tactic.Positivity

/-!
# Bernstein polynomials and a checker for polynomial bounds on an interval

Only integers are computed with; the checker is evaluated by the kernel.
-/

namespace Panda.Bern

/-- Polynomial of degree at most `d` in `t` with Bernstein coefficients `b 0, …, b d` (de Casteljau). -/
def bern : ℕ → (ℕ → ℝ) → ℝ → ℝ
  | 0, b, _ => b 0
  | d + 1, b, t => (1 - t) * bern d b t + t * bern d (fun i => b (i + 1)) t

theorem bern_congr {d : ℕ} {b b' : ℕ → ℝ} (h : ∀ i ≤ d, b i = b' i) (t : ℝ) : bern d b t = bern d b' t := by
  induction d generalizing b b' with
  | zero => exact h 0 le_rfl
  | succ d ih =>
    unfold bern
    rw [ih fun i hi => h i (by omega), ih (b := fun i => b (i + 1)) fun i hi => h (i + 1) (by omega)]

theorem bern_lin (d : ℕ) (p q : ℝ) (b b' : ℕ → ℝ) (t : ℝ) :
    bern d (fun i => p * b i + q * b' i) t = p * bern d b t + q * bern d b' t := by
  induction d generalizing b b' with
  | zero => rfl
  | succ d ih =>
    unfold bern
    rw [ih, ih (b := fun i => b (i + 1))]
    ring

theorem bern_smul (d : ℕ) (p : ℝ) (b : ℕ → ℝ) (t : ℝ) : bern d (fun i => p * b i) t = p * bern d b t := by
  have := bern_lin d p 0 b (fun _ => 0) t
  simpa using this

theorem bern_const (d : ℕ) (p t : ℝ) : bern d (fun _ => p) t = p := by
  induction d with
  | zero => rfl
  | succ d ih =>
    unfold bern
    rw [ih]
    ring

theorem bern_bound {d : ℕ} {b : ℕ → ℝ} {lo hi t : ℝ} (h0 : 0 ≤ t) (h1 : t ≤ 1) (h : ∀ i ≤ d, lo ≤ b i ∧ b i ≤ hi) :
    lo ≤ bern d b t ∧ bern d b t ≤ hi := by
  induction d generalizing b with
  | zero => exact h 0 le_rfl
  | succ d ih =>
    obtain ⟨a1, a2⟩ := ih (b := b) fun i hi => h i (by omega)
    obtain ⟨a3, a4⟩ := ih (b := fun i => b (i + 1)) fun i hi => h (i + 1) (by omega)
    unfold bern
    have h2 : 0 ≤ 1 - t := by linarith
    constructor
    · nlinarith [mul_le_mul_of_nonneg_left a1 h2, mul_le_mul_of_nonneg_left a3 h0]
    · nlinarith [mul_le_mul_of_nonneg_left a2 h2, mul_le_mul_of_nonneg_left a4 h0]

theorem bern_rev (d : ℕ) (b : ℕ → ℝ) (t : ℝ) : bern d (fun i => b (d - i)) t = bern d b (1 - t) := by
  induction d generalizing b with
  | zero => rfl
  | succ d ih =>
    unfold bern
    have e1 : bern d (fun i => b (d + 1 - i)) t = bern d (fun i => b (i + 1)) (1 - t) := by
      rw [← ih]
      exact bern_congr (fun i hi => by rw [show d + 1 - i = d - i + 1 by omega]) t
    have e2 : bern d (fun i => b (d + 1 - (i + 1))) t = bern d b (1 - t) := by
      rw [← ih]
      exact bern_congr (fun i hi => by rw [show d + 1 - (i + 1) = d - i by omega]) t
    rw [e1, e2]
    ring

/-- Weighted sums of neighbours, repeatedly; `lefts P Q b j` is `(P + Q)^j` times the `j`-th coefficient on the first
`Q / (P + Q)` of the interval. -/
def lefts (P Q : ℝ) (b : ℕ → ℝ) : ℕ → ℝ
  | 0 => b 0
  | j + 1 => lefts P Q (fun i => P * b i + Q * b (i + 1)) j

theorem lefts_lin (P Q : ℝ) (j : ℕ) (p q : ℝ) (b b' : ℕ → ℝ) :
    lefts P Q (fun i => p * b i + q * b' i) j = p * lefts P Q b j + q * lefts P Q b' j := by
  induction j generalizing b b' with
  | zero => rfl
  | succ j ih =>
    unfold lefts
    rw [← ih]
    congr 1
    funext i
    ring

theorem bern_left {P Q : ℝ} (hS : P + Q ≠ 0) (d : ℕ) (b : ℕ → ℝ) (t : ℝ) :
    bern d (fun j => lefts P Q b j / (P + Q) ^ j) t = bern d b (t * (Q / (P + Q))) := by
  induction d generalizing b with
  | zero => simp [bern, lefts]
  | succ d ih =>
    unfold bern
    rw [ih]
    have e : bern d (fun j => lefts P Q b (j + 1) / (P + Q) ^ (j + 1)) t =
        P / (P + Q) * bern d b (t * (Q / (P + Q))) + Q / (P + Q) * bern d (fun i => b (i + 1)) (t * (Q / (P + Q))) := by
      rw [← bern_lin, ← ih]
      refine bern_congr (fun j _ => ?_) t
      rw [lefts, lefts_lin, lefts_lin]
      field_simp
      ring
    rw [e]
    field_simp
    ring

/-- Multiplication by `1 - t`. -/
theorem bern_mul_one_sub (d : ℕ) (b : ℕ → ℝ) (t : ℝ) :
    bern (d + 1) (fun i => ((d : ℝ) + 1 - i) * b i) t = (d + 1) * ((1 - t) * bern d b t) := by
  induction d generalizing b with
  | zero =>
    simp [bern]
  | succ d ih =>
    have e1 : bern (d + 1) (fun i => ((d + 1 : ℕ) + 1 - i : ℝ) * b i) t =
        (d + 1) * ((1 - t) * bern d b t) + bern (d + 1) b t := by
      rw [← ih, ← one_mul (bern (d + 1) b t)]
      rw [show ∀ z : ℝ, z + 1 * bern (d + 1) b t = 1 * z + 1 * bern (d + 1) b t from fun z => by ring, ← bern_lin]
      refine bern_congr (fun i _ => ?_) t
      push_cast
      ring
    have e2 : bern (d + 1) (fun i => ((d + 1 : ℕ) + 1 - (i + 1 : ℕ) : ℝ) * b (i + 1)) t =
        (d + 1) * ((1 - t) * bern d (fun i => b (i + 1)) t) := by
      rw [← ih]
      refine bern_congr (fun i _ => ?_) t
      push_cast
      ring
    rw [show bern (d + 1 + 1) (fun i => ((d + 1 : ℕ) + 1 - i : ℝ) * b i) t =
      (1 - t) * bern (d + 1) (fun i => ((d + 1 : ℕ) + 1 - i : ℝ) * b i) t +
      t * bern (d + 1) (fun i => ((d + 1 : ℕ) + 1 - (i + 1 : ℕ) : ℝ) * b (i + 1)) t from rfl, e1, e2]
    have e3 : bern (d + 1) b t = (1 - t) * bern d b t + t * bern d (fun i => b (i + 1)) t := rfl
    push_cast
    rw [e3]
    ring

/-- Multiplication by `t`. -/
theorem bern_mul_t (d : ℕ) (b : ℕ → ℝ) (t : ℝ) :
    bern (d + 1) (fun i => (i : ℝ) * b (i - 1)) t = (d + 1) * (t * bern d b t) := by
  have h := bern_mul_one_sub d (fun i => b (d - i)) (1 - t)
  rw [bern_rev, sub_sub_cancel] at h
  rw [← h, ← bern_rev]
  refine bern_congr (fun i hi => ?_) t
  rcases Nat.eq_zero_or_pos i with rfl | hpos
  · simp
  · rw [show d - (d + 1 - i) = i - 1 by omega, Nat.cast_sub hi]
    push_cast
    ring

theorem bern_mul_linear (d : ℕ) (l h : ℝ) (b : ℕ → ℝ) (t : ℝ) :
    bern (d + 1) (fun i => ((d : ℝ) + 1 - i) * l * b i + i * h * b (i - 1)) t = (d + 1) * ((l + (h - l) * t) * bern d b t) := by
  have e : (fun i : ℕ => ((d : ℝ) + 1 - i) * l * b i + i * h * b (i - 1)) =
      fun i : ℕ => l * (((d : ℝ) + 1 - i) * b i) + h * ((i : ℝ) * b (i - 1)) := by
    funext i
    ring
  rw [e, bern_lin d.succ, bern_mul_one_sub, bern_mul_t]
  ring

/-! ## The checker -/

/-- `k n`, with `n` evaluated first (when run by the kernel). -/
noncomputable def force {α : Type} (n : ℕ) (k : ℕ → α) : α := Nat.rec (k 0) (fun m _ => k (Nat.succ m)) n

theorem force_eq {α : Type} (n : ℕ) (k : ℕ → α) : force n k = k n := by cases n <;> rfl

/-- `k l`, with `l` evaluated first. -/
noncomputable def forceList {α : Type} (l : List ℕ) : (List ℕ → α) → α :=
  List.rec (fun k => k []) (fun a _ ih k => force a fun a => ih fun l => k (a :: l)) l

theorem forceList_eq {α : Type} (l : List ℕ) (k : List ℕ → α) : forceList l k = k l := by
  induction l generalizing k with
  | nil => rfl
  | cons a l ih =>
    change force a (fun a => forceList l fun l => k (a :: l)) = _
    rw [force_eq, ih]

/-- Weighted sums of neighbours: of `p` and the head of `l`, and so on. -/
noncomputable def pairSums (P Q : ℕ) (l : List ℕ) : ℕ → List ℕ :=
  List.rec (fun _ => []) (fun a _ ih p => force (Nat.add (Nat.mul P p) (Nat.mul Q a)) fun s => s :: ih a) l

theorem pairSums_cons (P Q p a : ℕ) (l : List ℕ) : pairSums P Q (a :: l) p = (P * p + Q * a) :: pairSums P Q l a := by
  change force (P * p + Q * a) (fun s => s :: pairSums P Q l a) = _
  rw [force_eq]

/-- Coefficients on the first `Q / (P + Q)` of the interval, times `(P + Q)^d` (for a list of length `d + 1`). -/
noncomputable def leftPart (P Q n : ℕ) : List ℕ → List ℕ :=
  Nat.rec (fun _ => []) (fun n ih l => List.rec []
    (fun a l _ => force (Nat.mul a (Nat.pow (Nat.add P Q) n)) fun s => forceList (pairSums P Q l a) fun r => s :: ih r) l) n

theorem leftPart_cons (P Q n a : ℕ) (l : List ℕ) :
    leftPart P Q (n + 1) (a :: l) = (a * (P + Q) ^ n) :: leftPart P Q n (pairSums P Q l a) := by
  change force (a * (P + Q) ^ n) (fun s => forceList (pairSums P Q l a) fun r => s :: leftPart P Q n r) = _
  rw [force_eq, forceList_eq]

/-- `l` reversed, in front of `acc`. -/
noncomputable def rev (l : List ℕ) : List ℕ → List ℕ := List.rec (fun acc => acc) (fun a _ ih acc => ih (a :: acc)) l

theorem rev_eq (l acc : List ℕ) : rev l acc = l.reverse ++ acc := by
  induction l generalizing acc with
  | nil => rfl
  | cons a l ih =>
    change rev l (a :: acc) = _
    rw [ih]
    simp

/-- Coefficients on the last `P / (P + Q)` of the interval, times `(P + Q)^d`. -/
noncomputable def rightPart (P Q n : ℕ) (l : List ℕ) : List ℕ :=
  forceList (rev l []) fun r => forceList (leftPart Q P n r) fun r => rev r []

theorem rightPart_eq (P Q n : ℕ) (l : List ℕ) : rightPart P Q n l = (leftPart Q P n l.reverse).reverse := by
  simp only [rightPart, forceList_eq, rev_eq, List.append_nil]

/-- Are all elements between `lo` and `hi`? -/
noncomputable def inRange (lo hi : ℕ) (l : List ℕ) : Bool :=
  List.rec true (fun a _ ih => Bool.rec false (Bool.rec false ih (Nat.ble a hi)) (Nat.ble lo a)) l

theorem inRange_cons (lo hi a : ℕ) (l : List ℕ) : inRange lo hi (a :: l) = (Nat.ble lo a && (Nat.ble a hi && inRange lo hi l)) := by
  change (Bool.rec false (Bool.rec false (inRange lo hi l) (Nat.ble a hi)) (Nat.ble lo a) : Bool) = _
  cases Nat.ble lo a <;> cases Nat.ble a hi <;> rfl

/-- All values of the polynomial with coefficients `l` (`n` of them) are between `lo` and `hi`: at once, or after splitting the
interval at a third at most `depth` times. (Halves would do as well, but powers of two are bad for the hash table of the
kernel.) -/
noncomputable def check (n depth : ℕ) : (lo hi : ℕ) → List ℕ → Bool :=
  Nat.rec (fun lo hi l => inRange lo hi l)
    (fun _ ih lo hi l =>
      Bool.rec
        (force (Nat.mul lo (Nat.pow 3 (Nat.pred n))) fun lo => force (Nat.mul hi (Nat.pow 3 (Nat.pred n))) fun hi =>
          Bool.rec false (forceList (rightPart 2 1 n l) fun r => ih lo hi r) (forceList (leftPart 2 1 n l) fun r => ih lo hi r))
        true (inRange lo hi l)) depth

theorem check_succ (n depth lo hi : ℕ) (l : List ℕ) :
    check n (depth + 1) lo hi l = (inRange lo hi l ||
        (check n depth (lo * 3 ^ (n - 1)) (hi * 3 ^ (n - 1)) (leftPart 2 1 n l) &&
          check n depth (lo * 3 ^ (n - 1)) (hi * 3 ^ (n - 1)) (rightPart 2 1 n l))) := by
  change (Bool.rec (force (lo * 3 ^ (n - 1)) fun lo => force (hi * 3 ^ (n - 1)) fun hi =>
          Bool.rec false (forceList (rightPart 2 1 n l) fun r => check n depth lo hi r)
            (forceList (leftPart 2 1 n l) fun r => check n depth lo hi r)) true (inRange lo hi l) : Bool) = _
  simp only [force_eq, forceList_eq]
  cases inRange lo hi l
  · cases check n depth (lo * 3 ^ (n - 1)) (hi * 3 ^ (n - 1)) (leftPart 2 1 n l) <;> rfl
  · rfl

/-- A list of naturals as a sequence of reals. -/
def rseq (l : List ℕ) (i : ℕ) : ℝ := (l.getD i 0 : ℕ)

theorem inRange_spec {lo hi : ℕ} {l : List ℕ} (h : inRange lo hi l = true) {i : ℕ} (hi' : i < l.length) :
    (lo : ℝ) ≤ rseq l i ∧ rseq l i ≤ hi := by
  induction l generalizing i with
  | nil => exact absurd hi' (by simp)
  | cons a l ih =>
    simp only [inRange_cons, Bool.and_eq_true, Nat.ble_eq] at h
    cases i with
    | zero => exact ⟨by simpa [rseq] using h.1, by simpa [rseq] using h.2.1⟩
    | succ i =>
      have := ih h.2.2 (i := i) (by simpa using hi')
      simpa [rseq] using this

theorem pairSums_length (P Q p : ℕ) (l : List ℕ) : (pairSums P Q l p).length = l.length := by
  induction l generalizing p with
  | nil => rfl
  | cons a l ih => rw [pairSums_cons, List.length_cons, ih, List.length_cons]

theorem pairSums_seq (P Q p : ℕ) (l : List ℕ) {i : ℕ} (hi : i < l.length) :
    rseq (pairSums P Q l p) i = P * rseq (p :: l) i + Q * rseq (p :: l) (i + 1) := by
  induction l generalizing p i with
  | nil => exact absurd hi (by simp)
  | cons a l ih =>
    rw [pairSums_cons]
    cases i with
    | zero => simp [rseq]
    | succ i =>
      have := ih a (i := i) (by simpa using hi)
      simpa [rseq] using this

theorem lefts_congr {P Q : ℝ} {b b' : ℕ → ℝ} {j : ℕ} (h : ∀ i ≤ j, b i = b' i) : lefts P Q b j = lefts P Q b' j := by
  induction j generalizing b b' with
  | zero => exact h 0 le_rfl
  | succ j ih =>
    unfold lefts
    exact ih fun i hi => by rw [h i (by omega), h (i + 1) (by omega)]

theorem leftPart_length (P Q n : ℕ) (l : List ℕ) (h : l.length = n) : (leftPart P Q n l).length = n := by
  induction n generalizing l with
  | zero => rfl
  | succ n ih =>
    cases l with
    | nil => simp at h
    | cons a l =>
      rw [leftPart_cons, List.length_cons, ih]
      rw [pairSums_length]
      simpa using h

theorem leftPart_seq {P Q : ℕ} (hS : P + Q ≠ 0) (n : ℕ) (l : List ℕ) (h : l.length = n) {j : ℕ} (hj : j < n) :
    rseq (leftPart P Q n l) j = ((P : ℝ) + Q) ^ (n - 1) * (lefts P Q (rseq l) j / ((P : ℝ) + Q) ^ j) := by
  have hS' : (P : ℝ) + Q ≠ 0 := by exact_mod_cast hS
  induction n generalizing l j with
  | zero => omega
  | succ n ih =>
    cases l with
    | nil => simp at h
    | cons a l =>
      rw [leftPart_cons]
      cases j with
      | zero =>
        simp [rseq, lefts]
        ring
      | succ j =>
        have hl : l.length = n := by simpa using h
        have := ih (pairSums P Q l a) (by rw [pairSums_length, hl]) (j := j) (by omega)
        have e : rseq (a * (P + Q) ^ n :: leftPart P Q n (pairSums P Q l a)) (j + 1) =
            rseq (leftPart P Q n (pairSums P Q l a)) j := by simp [rseq]
        rw [e, this]
        have e2 : lefts P Q (rseq (pairSums P Q l a)) j = lefts P Q (rseq (a :: l)) (j + 1) := by
          rw [lefts]
          exact lefts_congr fun i hi => pairSums_seq P Q a l (by omega)
        rw [e2, show n + 1 - 1 = n - 1 + 1 by omega, pow_succ, pow_succ]
        field_simp

theorem rseq_reverse (l : List ℕ) {i : ℕ} (hi : i < l.length) : rseq l.reverse i = rseq l (l.length - 1 - i) := by
  unfold rseq
  simp only [List.getD_eq_getElem?_getD]
  rw [List.getElem?_reverse hi]

theorem leftPart_bern {P Q : ℕ} (hS : P + Q ≠ 0) (d : ℕ) (l : List ℕ) (h : l.length = d + 1) (t : ℝ) :
    bern d (rseq (leftPart P Q (d + 1) l)) t = ((P : ℝ) + Q) ^ d * bern d (rseq l) (t * (Q / ((P : ℝ) + Q))) := by
  rw [← bern_left (by exact_mod_cast hS), ← bern_smul]
  exact bern_congr (fun j hj => leftPart_seq hS (d + 1) l h (by omega)) t

theorem reverse_bern (d : ℕ) (l : List ℕ) (h : l.length = d + 1) (t : ℝ) :
    bern d (rseq l.reverse) t = bern d (rseq l) (1 - t) := by
  rw [← bern_rev]
  refine bern_congr (fun i hi => ?_) t
  rw [rseq_reverse l (by omega), h]
  rfl

theorem rightPart_bern {P Q : ℕ} (hS : P + Q ≠ 0) (d : ℕ) (l : List ℕ) (h : l.length = d + 1) (t : ℝ) :
    bern d (rseq (rightPart P Q (d + 1) l)) t =
      ((P : ℝ) + Q) ^ d * bern d (rseq l) (1 - (1 - t) * (P / ((P : ℝ) + Q))) := by
  rw [rightPart_eq]
  rw [reverse_bern d _ (leftPart_length _ _ _ _ (by rw [List.length_reverse, h])),
    leftPart_bern (by omega) d _ (by rw [List.length_reverse, h]), reverse_bern d l h, add_comm (Q : ℝ)]

/-- The checker is right. -/
theorem check_sound {d depth lo hi : ℕ} {l : List ℕ} (hl : l.length = d + 1) (h : check (d + 1) depth lo hi l = true) {t : ℝ}
    (h0 : 0 ≤ t) (h1 : t ≤ 1) : (lo : ℝ) ≤ bern d (rseq l) t ∧ bern d (rseq l) t ≤ hi := by
  have leaf : ∀ {lo hi : ℕ} {l : List ℕ}, l.length = d + 1 → inRange lo hi l = true → ∀ {t : ℝ}, 0 ≤ t → t ≤ 1 →
      (lo : ℝ) ≤ bern d (rseq l) t ∧ bern d (rseq l) t ≤ hi :=
    fun hl h _ h0 h1 => bern_bound h0 h1 fun i hi => inRange_spec h (by omega)
  induction depth generalizing lo hi l t with
  | zero => exact leaf hl h h0 h1
  | succ depth ih =>
    rw [check_succ, Bool.or_eq_true] at h
    rcases h with h | h
    · exact leaf hl h h0 h1
    · rw [Bool.and_eq_true] at h
      have hp : (0 : ℝ) < 3 ^ d := by positivity
      rcases le_total t (1 / 3) with ht | ht
      · have := ih (leftPart_length _ _ _ _ hl) h.1 (t := 3 * t) (by linarith) (by linarith)
        rw [leftPart_bern (by norm_num) d l hl] at this
        push_cast at this
        rw [show 3 * t * (1 / (2 + 1)) = t by ring, show (2 + 1 : ℝ) = 3 by norm_num] at this
        constructor
        · nlinarith [this.1]
        · nlinarith [this.2]
      · have hr : (rightPart 2 1 (d + 1) l).length = d + 1 := by
          rw [rightPart_eq]
          rw [List.length_reverse, leftPart_length _ _ _ _ (by rw [List.length_reverse, hl])]
        have := ih hr h.2 (t := (3 * t - 1) / 2) (by linarith) (by linarith)
        rw [rightPart_bern (by norm_num) d l hl] at this
        push_cast at this
        rw [show 1 - (1 - (3 * t - 1) / 2) * (2 / (2 + 1)) = t by ring, show (2 + 1 : ℝ) = 3 by norm_num] at this
        constructor
        · nlinarith [this.1]
        · nlinarith [this.2]

end Panda.Bern
