import Verif.Model.Contract
import Verif.Proofs.RoundingCascade

/-!
# Rounding errors of FIR filters with contraction
-/

set_option linter.unusedSectionVars false

namespace Panda

open Finset Examples

variable {S : Format} {u η Ω : ℚ} {ch : Term S → Fuse}

/-- `Approx` for an expression, rounded or not. -/
def ApproxT (ch : Term S → Fuse) (u η : ℚ) (v : Term S) (s A : ℚ) (k c : ℕ) : Prop :=
  Approx u η (v.both ch).1 s A k c ∧ Approx u η (v.both ch).2 s A k c

theorem ApproxT.nonneg {v : Term S} {s A : ℚ} {k c : ℕ} (h : ApproxT ch u η v s A k c) : 0 ≤ A := h.1.nonneg

theorem ApproxT.mono (hS : S.Acc u η Ω) {v : Term S} {s A : ℚ} {k c k' c' : ℕ} (h : ApproxT ch u η v s A k c) (hk : k ≤ k') (hc : c ≤ c') :
    ApproxT ch u η v s A k' c' := ⟨h.1.mono hS hk hc, h.2.mono hS hk hc⟩

theorem ApproxT.zero : ApproxT ch u η (0 : Term S) 0 0 0 0 := ⟨Approx.zero, Approx.zero⟩

theorem ApproxT.mul (hS : S.Acc u η Ω) {v w : Term S} {a b : ℚ} (hv : v.eval ch = Fl.fin a) (hw : w.eval ch = Fl.fin b)
    (h : (1 + u) * (|a| * |b|) + η ≤ Ω) : ApproxT ch u η (v * w) (a * b) (|a| * |b|) 1 1 := by
  have h1 := Approx.mul hS a b h
  have e : (v * w).both ch = (v.eval ch * w.eval ch, Term.exactMul (v.eval ch) (w.eval ch)) := rfl
  unfold ApproxT
  rw [e, hv, hw]
  refine ⟨h1, a * b, rfl, by rw [abs_mul], ?_⟩
  rw [sub_self, abs_zero]
  have := hS.hu
  have := hS.hη
  have : 0 ≤ u * (|a| * |b|) := by positivity
  have : 0 ≤ (1 : ℕ) * η * (1 + u) ^ 1 := by positivity
  rw [pow_one] at *
  linarith

theorem ApproxT.add (hS : S.Acc u η Ω) {v w : Term S} {s t A B : ℚ} {k c d : ℕ} (hv : ApproxT ch u η v s A k c) (hw : ApproxT ch u η w t B k d)
    (h : (1 + u) ^ (k + 1) * (A + B + (c + d + 1 : ℕ) * η) ≤ Ω) : ApproxT ch u η (v + w) (s + t) (A + B) (k + 1) (c + d + 1) := by
  have key : Approx u η (Term.Fuse.pick (ch (Term.add v w)) (· + ·) (v.both ch) (w.both ch)) (s + t) (A + B) (k + 1) (c + d + 1) := by
    unfold Term.Fuse.pick
    split
    · exact hv.1.add hS hw.1 h
    · exact hv.2.add hS hw.1 h
    · exact hv.1.add hS hw.2 h
  exact ⟨key, key⟩

/-! ## Dot products -/

/-- A sequence of expressions with finite values up to (excluding) `N`. -/
def EvalSeq (ch : Term S → Fuse) (X : ℕ → Term S) (x : ℕ → ℚ) (N : ℕ) : Prop := ∀ i < N, (X i).eval ch = Fl.fin (x i)

theorem approx_scalarT (hS : S.Acc u η Ω) {X T : ℕ → Term S} {x t : ℕ → ℚ} {O : ℕ} (hX : EvalSeq ch X x O) (hT : EvalSeq ch T t O)
    (hΩ : (1 + u) ^ (O + 1) * (firScalar (fun i => |x i|) (fun i => |t i|) O + (2 * O : ℕ) * η) ≤ Ω) (n : ℕ) (hn : n ≤ O) :
    ApproxT ch u η (firScalar X T n) (firScalar x t n) (firScalar (fun i => |x i|) (fun i => |t i|) n) (n + 1) (2 * n) := by
  have hu := hS.hu
  have hη := hS.hη
  have hΩ' : ∀ (k c : ℕ) (A : ℚ), 0 ≤ A → k ≤ O + 1 → c ≤ 2 * O → A ≤ firScalar (fun i => |x i|) (fun i => |t i|) O →
      (1 + u) ^ k * (A + c * η) ≤ Ω := by
    intro k c A h0 hk hc hA
    refine le_trans ?_ hΩ
    have p1 : (1 + u) ^ k ≤ (1 + u) ^ (O + 1) := pow_le_pow_right₀ (by linarith) hk
    have hc' : (c : ℚ) ≤ (2 * O : ℕ) := by exact_mod_cast hc
    gcongr
  induction n with
  | zero => exact ApproxT.zero.mono hS (by omega) (by omega)
  | succ n ih =>
    have h1 := ih (by omega)
    have hpos : 0 ≤ firScalar (fun i => |x i|) (fun i => |t i|) n := h1.nonneg
    have hle := firScalar_abs_mono x t hn
    have e : firScalar (fun i => |x i|) (fun i => |t i|) (n + 1) = firScalar (fun i => |x i|) (fun i => |t i|) n + |x n| * |t n| := rfl
    have hm : |x n| * |t n| ≤ firScalar (fun i => |x i|) (fun i => |t i|) O := by linarith
    have h2 := ApproxT.mul hS (hX n (by omega)) (hT n (by omega)) (by
      have := hΩ' 1 1 (|x n| * |t n|) (by positivity) (by omega) (by omega) hm
      have h0 : 0 ≤ u * η := by positivity
      push_cast at this
      nlinarith)
    rw [firScalar]
    have h3 := h1.add hS (h2.mono hS (show 1 ≤ n + 1 by omega) le_rfl) (by
      have := hΩ' (n + 1 + 1) (2 * n + 1 + 1) (firScalar (fun i => |x i|) (fun i => |t i|) n + |x n| * |t n|) (by positivity)
        (by omega) (by omega) (by rw [← e]; exact hle)
      exact this)
    exact h3

theorem delayedTap_finT {T : ℕ → Term S} {t : ℕ → ℚ} {O : ℕ} (hT : EvalSeq ch T t O) (k j : ℕ) :
    (delayedTap T O k j).eval ch = Fl.fin (delayedTap t O k j) := by
  unfold delayedTap
  split
  · exact hT _ (by omega)
  · rfl

theorem approx_laneT (hS : S.Acc u η Ω) {X T : ℕ → Term S} {x t : ℕ → ℚ} {O N : ℕ} (hT : EvalSeq ch T t O) (k r : ℕ) (hr : r < 4)
    (hX : EvalSeq ch X x (4 * (N + 1)))
    (hΩ : (1 + u) ^ (N + 1) * (firLane (fun i => |x i|) (fun i => |t i|) O k r N + (2 * N + 1 : ℕ) * η) ≤ Ω) (n : ℕ) (hn : n ≤ N) :
    ApproxT ch u η (firLane X T O k r n) (firLane x t O k r n) (firLane (fun i => |x i|) (fun i => |t i|) O k r n) (n + 1) (2 * n + 1) := by
  have hu := hS.hu
  have hη := hS.hη
  have hΩ' : ∀ (a c : ℕ) (A : ℚ), 0 ≤ A → a ≤ N + 1 → c ≤ 2 * N + 1 → A ≤ firLane (fun i => |x i|) (fun i => |t i|) O k r N →
      (1 + u) ^ a * (A + c * η) ≤ Ω := by
    intro a c A h0 hk hc hA
    refine le_trans ?_ hΩ
    have p1 : (1 + u) ^ a ≤ (1 + u) ^ (N + 1) := pow_le_pow_right₀ (by linarith) hk
    have hc' : (c : ℚ) ≤ (2 * N + 1 : ℕ) := by exact_mod_cast hc
    gcongr
  have prod : ∀ j, j < 4 * (N + 1) → |x j| * |delayedTap t O k j| ≤ firLane (fun i => |x i|) (fun i => |t i|) O k r N →
      ApproxT ch u η (X j * delayedTap T O k j) (x j * delayedTap t O k j) (|x j| * delayedTap (fun i => |t i|) O k j) 1 1 := by
    intro j hj hle
    rw [← delayedTap_abs]
    refine ApproxT.mul hS (hX j hj) (delayedTap_finT hT k j) ?_
    have := hΩ' 1 1 _ (by positivity) (by omega) (by omega) hle
    have h0 : 0 ≤ u * η := by positivity
    push_cast at this
    nlinarith
  induction n with
  | zero =>
    refine prod r (by omega) ?_
    have := firLane_abs_mono x t O k r (Nat.zero_le N)
    rw [delayedTap_abs]
    exact this
  | succ n ih =>
    have h1 := ih (by omega)
    have hle := firLane_abs_mono x t O k r hn
    have hp := firLane_abs_nonneg x t O k r n
    have e : firLane (fun i => |x i|) (fun i => |t i|) O k r (n + 1) =
      firLane (fun i => |x i|) (fun i => |t i|) O k r n + |x (4 * (n + 1) + r)| * |delayedTap t O k (4 * (n + 1) + r)| := by
      rw [delayedTap_abs]; rfl
    have h2 := prod (4 * (n + 1) + r) (by omega) (by linarith)
    have h3 := h1.add hS (h2.mono hS (show 1 ≤ n + 1 by omega) le_rfl) (by
      have := hΩ' (n + 1 + 1) (2 * n + 1 + 1 + 1) _ (firLane_abs_nonneg x t O k r (n + 1)) (by omega) (by omega) hle
      exact this)
    exact h3

theorem approx_vectorT (hS : S.Acc u η Ω) {X T : ℕ → Term S} {x t : ℕ → ℚ} {O : ℕ} (hO : 2 ≤ O) (hT : EvalSeq ch T t O) (k : ℕ)
    (hX : EvalSeq ch X x (4 * ((O + 6) / 4)))
    (hΩ : (1 + u) ^ (O + 3) * (firVector (fun i => |x i|) (fun i => |t i|) O k + (2 * O + 11 : ℕ) * η) ≤ Ω) :
    ApproxT ch u η (firVector X T O k) (firVector x t O k) (firVector (fun i => |x i|) (fun i => |t i|) O k) (O + 3) (2 * O + 11) := by
  have hu := hS.hu
  have hη := hS.hη
  unfold firVector at *
  generalize hN : (O + 6) / 4 - 1 = N at *
  have hN' : (O + 6) / 4 = N + 1 := by omega
  rw [hN'] at hX
  have hpos := fun r => firLane_abs_nonneg x t O k r N
  have hΩ' : ∀ (a c : ℕ) (A : ℚ), 0 ≤ A → a ≤ O + 3 → c ≤ 2 * O + 11 →
      A ≤ firLane (fun i => |x i|) (fun i => |t i|) O k 0 N + firLane (fun i => |x i|) (fun i => |t i|) O k 1 N +
        firLane (fun i => |x i|) (fun i => |t i|) O k 2 N + firLane (fun i => |x i|) (fun i => |t i|) O k 3 N →
      (1 + u) ^ a * (A + c * η) ≤ Ω := by
    intro a c A h0 hk hc hA
    refine le_trans ?_ hΩ
    have p1 : (1 + u) ^ a ≤ (1 + u) ^ (O + 3) := pow_le_pow_right₀ (by linarith) hk
    have hc' : (c : ℚ) ≤ (2 * O + 11 : ℕ) := by exact_mod_cast hc
    gcongr
  have p0 := hpos 0
  have p1 := hpos 1
  have p2 := hpos 2
  have p3 := hpos 3
  have lane := fun r (hr : r < 4) (hA : firLane (fun i => |x i|) (fun i => |t i|) O k r N ≤
        firLane (fun i => |x i|) (fun i => |t i|) O k 0 N + firLane (fun i => |x i|) (fun i => |t i|) O k 1 N +
        firLane (fun i => |x i|) (fun i => |t i|) O k 2 N + firLane (fun i => |x i|) (fun i => |t i|) O k 3 N) =>
    approx_laneT hS hT k r hr hX (hΩ' _ _ _ (hpos r) (by omega) (by omega) hA) N le_rfl
  have l0 := lane 0 (by omega) (by linarith)
  have l1 := lane 1 (by omega) (by linarith)
  have l2 := lane 2 (by omega) (by linarith)
  have l3 := lane 3 (by omega) (by linarith)
  have a1 := l0.add hS l1 (hΩ' _ _ _ (by linarith) (by omega) (by omega) (by linarith))
  have a2 := a1.add hS (l2.mono hS (show N + 1 ≤ N + 1 + 1 by omega) le_rfl) (hΩ' _ _ _ (by linarith) (by omega) (by omega) (by linarith))
  have a3 := a2.add hS (l3.mono hS (show N + 1 ≤ N + 1 + 1 + 1 by omega) le_rfl) (hΩ' _ _ _ (by linarith) (by omega) (by omega) le_rfl)
  exact a3.mono hS (by omega) (by omega)

/-- Rounding errors of a dot product, in whichever order it is computed. -/
theorem FirVal.approxT (hS : S.Acc u η Ω) {vec : Bool} {X T : ℕ → Term S} {x t : ℕ → ℚ} {O N m : ℕ} (hO : 2 ≤ O) (hT : EvalSeq ch T t O)
    (hX : EvalSeq ch X x N) (hm : m + O ≤ N)
    (hΩ : (1 + u) ^ (O + 3) * (∑ i ∈ range O, |t i| * |x (m + i)| + (2 * O + 11 : ℕ) * η) ≤ Ω) {v : Term S} (h : FirVal vec T O X N m v) :
    ApproxT ch u η v (∑ i ∈ range O, t i * x (m + i)) (∑ i ∈ range O, |t i| * |x (m + i)|) (O + 3) (2 * O + 11) := by
  have hu := hS.hu
  have hη := hS.hη
  rcases h with rfl | ⟨-, k, hk, hkm, hN, rfl⟩
  · have := approx_scalarT hS (X := fun i => X (m + i)) (x := fun i => x (m + i)) (fun i hi => hX _ (by omega)) hT (by
      refine le_trans ?_ hΩ
      rw [firScalar_eq_sum]
      have p1 : (1 + u) ^ (O + 1) ≤ (1 + u) ^ (O + 3) := pow_le_pow_right₀ (by linarith) (by omega)
      have hc' : ((2 * O : ℕ) : ℚ) ≤ (2 * O + 11 : ℕ) := by exact_mod_cast (by omega)
      have : 0 ≤ ∑ i ∈ range O, |t i| * |x (m + i)| := sum_nonneg fun _ _ => by positivity
      gcongr) O le_rfl
    rw [firScalar_eq_sum, firScalar_eq_sum] at this
    exact this.mono hS (by omega) (by omega)
  · have e : ∀ x t : ℕ → ℚ, firVector (fun i => x (m - k + i)) t O k = ∑ i ∈ range O, t i * x (m + i) := by
      intro x t
      rw [firVector_eq_sum _ _ _ _ hk]
      refine sum_congr rfl fun i _ => ?_
      congr 2
      omega
    have := approx_vectorT hS (X := fun i => X (m - k + i)) (x := fun i => x (m - k + i)) hO hT k (fun i hi => hX _ (by omega)) (by
      rw [e (fun i => |x i|) (fun i => |t i|)]
      exact hΩ)
    rw [e x t, e (fun i => |x i|) (fun i => |t i|)] at this
    exact this


/-! ## Stages -/

theorem eval_seq' (xs : List (Term S)) (n : ℕ) : (seq xs n).eval ch = seq (xs.map (Term.eval ch)) n := by
  unfold seq
  rw [List.getD_eq_getElem?_getD, List.getD_eq_getElem?_getD, List.getElem?_map]
  cases xs[n]? <;> rfl

theorem eval_seq {xs : List (Term S)} {xq : List ℚ} (h : xs.map (Term.eval ch) = xq.map fun q => Fl.fin q) (n : ℕ) :
    (seq xs n).eval ch = Fl.fin (seq xq n) := by
  rw [eval_seq', h, seq_fin]

theorem padded_finT {X : ℕ → Term S} {x : ℕ → ℚ} (h : ∀ n, (X n).eval ch = Fl.fin (x n)) (O k : ℕ) :
    (padded O X k).eval ch = Fl.fin (padded O x k) := by
  unfold padded
  split
  · rfl
  · exact h _

theorem firUp_roundT (hS : S.Acc u η Ω) {vec : Bool} {tq xs : List ℚ} {ts is ys : List (Term S)} (hO : 2 ≤ tq.length)
    (hts : ts.map (Term.eval ch) = tq.map fun q => Fl.fin q) (his : is.map (Term.eval ch) = xs.map fun q => Fl.fin q)
    (h : Stage.Rel (.firUp vec ts) is ys)
    (hΩ : ∀ n < 2 * xs.length, (1 + u) ^ (tq.length + 4) *
      (firUpOp tq.length (fun i => |seq tq i|) (fun i => |seq xs i|) n + (2 * tq.length + 13 : ℕ) * η) ≤ Ω) :
    ∃ yq : List ℚ, ys.map (Term.eval ch) = yq.map (fun q => Fl.fin q) ∧ yq.length = 2 * xs.length ∧
      ∀ n < yq.length, |seq yq n - firUpOp tq.length (seq tq) (seq xs) n| ≤
        ((1 + u) ^ (tq.length + 4) - 1) * firUpOp tq.length (fun i => |seq tq i|) (fun i => |seq xs i|) n +
          (2 * tq.length + 13 : ℕ) * η * (1 + u) ^ (tq.length + 4) := by
  have hu := hS.hu
  have hη := hS.hη
  obtain ⟨hl, hy⟩ := h
  have lt : ts.length = tq.length := by simpa using congrArg List.length hts
  have lx : is.length = xs.length := by simpa using congrArg List.length his
  rw [lx] at hl
  simp only [lt, lx] at hy
  have main : ∀ n < ys.length, Approx u η ((seq ys n).eval ch) (firUpOp tq.length (seq tq) (seq xs) n)
      (firUpOp tq.length (fun i => |seq tq i|) (fun i => |seq xs i|) n) (tq.length + 4) (2 * tq.length + 13) := by
    intro n hn
    obtain ⟨h1, h2⟩ := hy (n / 2) (by omega)
    have hΩn := hΩ n (by omega)
    unfold firUpOp at hΩn ⊢
    by_cases he : n % 2 = 0
    · rw [if_pos he] at hΩn ⊢
      rw [if_pos he]
      rw [show 2 * (n / 2) = n by omega] at h1
      have e1 : ∀ i, (n / 2 : ℕ) - ((tq.length : ℤ) - 1) + i = ((n / 2 + i : ℕ) : ℤ) - ((tq.length : ℤ) - 1) := by intro i; omega
      simp only [e1] at hΩn ⊢
      have e2 : ∀ i, zext (seq xs) (((n / 2 + i : ℕ) : ℤ) - ((tq.length : ℤ) - 1)) = padded tq.length (seq xs) (n / 2 + i) := by
        intro i
        rw [padded_eq_zext (by omega)]
      simp only [zext_abs, e2] at hΩn ⊢
      have := FirVal.approxT hS (t := seq tq) (x := padded tq.length (seq xs)) hO (fun i _ => eval_seq hts i)
        (fun i _ => padded_finT (eval_seq his) _ i) (by omega) (by
          refine le_trans ?_ hΩn
          have p1 : (1 + u) ^ (tq.length + 3) ≤ (1 + u) ^ (tq.length + 4) := pow_le_pow_right₀ (by linarith) (by omega)
          have hc' : ((2 * tq.length + 11 : ℕ) : ℚ) ≤ (2 * tq.length + 13 : ℕ) := by exact_mod_cast (by omega)
          have : 0 ≤ ∑ i ∈ range tq.length, |seq tq i| * |padded tq.length (seq xs) (n / 2 + i)| := sum_nonneg fun _ _ => by positivity
          gcongr) h1
      exact this.1.mono hS (by omega) (by omega)
    · rw [if_neg he, if_neg he]
      rw [show 2 * (n / 2) + 1 = n by omega] at h2
      rw [h2, padded_finT (eval_seq his), padded_eq_zext (by omega), zext_abs]
      have e : ((n / 2 : ℕ) : ℤ) - ((tq.length : ℤ) - 1) + (tq.length / 2 : ℕ) = ((n / 2 + tq.length / 2 : ℕ) : ℤ) - ((tq.length : ℤ) - 1) := by
        push_cast
        ring
      rw [e]
      have e' : (tq.length : ℤ) - 1 = ((tq.length - 1 : ℕ) : ℤ) := by omega
      have : Approx u η (Fl.fin (zext (seq xs) (((n / 2 + tq.length / 2 : ℕ) : ℤ) - ((tq.length : ℤ) - 1))) : Fl S)
        (zext (seq xs) (((n / 2 + tq.length / 2 : ℕ) : ℤ) - ((tq.length : ℤ) - 1)))
        |zext (seq xs) (((n / 2 + tq.length / 2 : ℕ) : ℤ) - ((tq.length : ℤ) - 1))| 0 0 := ⟨_, rfl, le_rfl, by simp⟩
      exact this.mono hS (by omega) (by omega)
  obtain ⟨yq, hyq⟩ := exists_fin_list (ys.map (Term.eval ch)) fun n hn => by
    rw [List.length_map] at hn
    obtain ⟨y, hy, -⟩ := main n hn
    refine ⟨y, ?_⟩
    rw [← hy, eval_seq']
  have ly : ys.length = yq.length := by simpa using congrArg List.length hyq
  rw [ly] at hl main
  refine ⟨yq, hyq, hl, fun n hn => ?_⟩
  obtain ⟨y, h1, -, h2⟩ := main n hn
  rw [eval_seq hyq] at h1
  obtain rfl := Option.some.inj h1
  exact h2

theorem firDown_roundT (hS : S.Acc u η Ω) {vec : Bool} {tq xs : List ℚ} {ts is ys : List (Term S)} (hO : 2 ≤ tq.length)
    (hts : ts.map (Term.eval ch) = tq.map fun q => Fl.fin q) (his : is.map (Term.eval ch) = xs.map fun q => Fl.fin q)
    (h : Stage.Rel (.firDown vec ts) is ys)
    (hΩ : ∀ n < xs.length / 2, (1 + u) ^ (tq.length + 4) *
      (firDownOp tq.length (fun i => |seq tq i|) (1 / 2) (fun i => |seq xs i|) n + (2 * tq.length + 13 : ℕ) * η) ≤ Ω) :
    ∃ yq : List ℚ, ys.map (Term.eval ch) = yq.map (fun q => Fl.fin q) ∧ xs.length = 2 * yq.length ∧
      ∀ n < yq.length, |seq yq n - firDownOp tq.length (seq tq) (1 / 2) (seq xs) n| ≤
        ((1 + u) ^ (tq.length + 4) - 1) * firDownOp tq.length (fun i => |seq tq i|) (1 / 2) (fun i => |seq xs i|) n +
          (2 * tq.length + 13 : ℕ) * η * (1 + u) ^ (tq.length + 4) := by
  have hu := hS.hu
  have hη := hS.hη
  obtain ⟨hl, hy⟩ := h
  have lt : ts.length = tq.length := by simpa using congrArg List.length hts
  have lx : is.length = xs.length := by simpa using congrArg List.length his
  rw [lx] at hl
  simp only [lt] at hy
  have main : ∀ n < ys.length, Approx u η ((seq ys n).eval ch) (firDownOp tq.length (seq tq) (1 / 2) (seq xs) n)
      (firDownOp tq.length (fun i => |seq tq i|) (1 / 2) (fun i => |seq xs i|) n) (tq.length + 4) (2 * tq.length + 13) := by
    intro n hn
    obtain ⟨v, h1, h2⟩ := hy n hn
    have hΩn := hΩ n (by omega)
    unfold firDownOp at hΩn ⊢
    have e1 : ∀ i : ℕ, zext (seq xs) (2 * (n - ((tq.length : ℤ) - 1) + i)) = padded tq.length (evens (seq xs)) (n + i) := by
      intro i
      rw [padded_eq_zext (by omega), zext_evens]
      congr 1
      omega
    have e2 : zext (seq xs) (2 * (n - ((tq.length : ℤ) - 1) + (tq.length / 2 : ℕ) - 1) + 1) =
        padded tq.length (odds (seq xs)) (n + (tq.length / 2 - 1)) := by
      rw [padded_eq_zext (by omega), zext_odds]
      congr 1
      omega
    simp only [zext_abs, e1, e2] at hΩn ⊢
    generalize hB : ∑ i ∈ range tq.length, |seq tq i| * |padded tq.length (evens (seq xs)) (n + i)| = B at hΩn ⊢
    have hB0 : 0 ≤ B := by rw [← hB]; exact sum_nonneg fun _ _ => by positivity
    generalize hw : padded tq.length (odds (seq xs)) (n + (tq.length / 2 - 1)) = w at hΩn ⊢
    have hΩ' : ∀ (a c : ℕ) (A : ℚ), 0 ≤ A → a ≤ tq.length + 4 → c ≤ 2 * tq.length + 13 → A ≤ B + 1 / 2 * |w| →
        (1 + u) ^ a * (A + c * η) ≤ Ω := by
      intro a c A h0 hk hc hA
      refine le_trans ?_ hΩn
      have p1 : (1 + u) ^ a ≤ (1 + u) ^ (tq.length + 4) := pow_le_pow_right₀ (by linarith) hk
      have hc' : (c : ℚ) ≤ (2 * tq.length + 13 : ℕ) := by exact_mod_cast hc
      gcongr
    have hw0 : 0 ≤ 1 / 2 * |w| := by positivity
    have a1 := FirVal.approxT hS (t := seq tq) (x := padded tq.length (evens (seq xs))) hO (fun i _ => eval_seq hts i)
      (fun i _ => padded_finT (fun n => eval_seq his (2 * n)) _ i) (by omega) (by
        rw [hB]
        exact hΩ' _ _ _ hB0 (by omega) (by omega) (by linarith)) h1
    rw [hB] at a1
    have ew : (padded tq.length (odds (seq is)) (n + (tq.length / 2 - 1))).eval ch = Fl.fin w := by
      rw [← hw]
      exact padded_finT (fun n => eval_seq his (2 * n + 1)) _ _
    have a2 : ApproxT ch u η (Sample.half * padded tq.length (odds (seq is)) (n + (tq.length / 2 - 1))) (1 / 2 * w) (1 / 2 * |w|) 1 1 := by
      have := ApproxT.mul hS (v := Sample.half) (a := 1 / 2) rfl ew (by
        have := hΩ' 1 1 (1 / 2 * |w|) hw0 (by omega) (by omega) (by linarith)
        have h0 : 0 ≤ u * η := by positivity
        rw [abs_of_pos (show (0 : ℚ) < 1 / 2 by norm_num)]
        push_cast at this
        nlinarith)
      rw [abs_of_pos (show (0 : ℚ) < 1 / 2 by norm_num)] at this
      exact this
    rw [h2]
    have a2' := a2.mono hS (show 1 ≤ tq.length + 3 by omega) le_rfl
    have hle := hΩ' (tq.length + 3 + 1) (2 * tq.length + 11 + 1 + 1) (B + 1 / 2 * |w|) (by linarith) (by omega) (by omega) le_rfl
    have a3 := a1.add hS a2' hle
    exact a3.1.mono hS (by omega) (by omega)
  obtain ⟨yq, hyq⟩ := exists_fin_list (ys.map (Term.eval ch)) fun n hn => by
    rw [List.length_map] at hn
    obtain ⟨y, hy, -⟩ := main n hn
    refine ⟨y, ?_⟩
    rw [← hy, eval_seq']
  have ly : ys.length = yq.length := by simpa using congrArg List.length hyq
  rw [ly] at hl main
  refine ⟨yq, hyq, hl, fun n hn => ?_⟩
  obtain ⟨y, h1, -, h2⟩ := main n hn
  rw [eval_seq hyq] at h1
  obtain rfl := Option.some.inj h1
  exact h2

/-! ## Whole resamplers -/

theorem firStage_roundT (hS : S.Acc u32r η Ω) {m : Mode} {vec : Bool} {t : List Dec} (hO : 2 ≤ t.length) (he : t.length % 2 = 0)
    (ht : TapsOk S m t) {xs : List ℚ} {is ys : List (Term S)} (his : is.map (Term.eval ch) = xs.map fun q => Fl.fin q)
    (h : (firStage m vec t).Rel is ys)
    {M ε : ℚ} (hM : ∀ n, |seq xs n| ≤ M) (hΩ : rndGain m t * M + rndAbs η t ≤ Ω) {r : ℕ → ℚ} (hε : 0 ≤ ε)
    (hr : ∀ n < xs.length, |seq xs n - r n| ≤ ε) :
    ∃ yq : List ℚ, ys.map (Term.eval ch) = yq.map (fun q => Fl.fin q) ∧ (∀ n, |seq yq n| ≤ rndGain m t * M + rndAbs η t) ∧
      ∀ n < yq.length, |seq yq n - (firStage (K := ℚ) m vec t).op r n| ≤ stageGain m t * ε + rndRel m t * M + rndAbs η t := by
  have hts : (t.map fun d => (Sample.ofDouble (d.toRat * m.scale) : Term S)).map (Term.eval ch) = (storedTaps S m t).map fun q => Fl.fin q := by
    rw [← ht.taps, List.map_map]
    rfl
  refine firStage_near hS hO he ht hM hΩ hε hr ?_ ?_
  · rintro rfl hb
    exact firUp_roundT hS (by rwa [storedTaps_length]) hts his h hb
  · rintro rfl hb
    exact firDown_roundT hS (by rwa [storedTaps_length]) hts his h hb

theorem cascade_roundT (hS : S.Acc u32r η Ω) {m : Mode} {vec : Bool} {M : ℚ} (ts : List (List Dec))
    (hts : ∀ t ∈ ts, 2 ≤ t.length ∧ t.length % 2 = 0 ∧ TapsOk S m t) (s : RndBound) (hf : s.Fits η m M Ω ts)
    {xs : List ℚ} {is zs : List (Term S)} (his : is.map (Term.eval ch) = xs.map fun q => Fl.fin q)
    (h : CascadeRel (ts.map (firStage m vec)) is zs)
    (hM : ∀ n, |seq xs n| ≤ s.a * M + s.b) {r : ℕ → ℚ} (h0 : 0 ≤ s.e * M + s.f)
    (hr : ∀ n < xs.length, |seq xs n - r n| ≤ s.e * M + s.f) :
    ∃ zq : List ℚ, zs.map (Term.eval ch) = zq.map (fun q => Fl.fin q) ∧
      (∀ n, |seq zq n| ≤ (ts.foldl (RndBound.step η m) s).a * M + (ts.foldl (RndBound.step η m) s).b) ∧
      ∀ n < zq.length, |seq zq n - cascadeOp (ts.map (firStage (K := ℚ) m vec)) r n| ≤
        (ts.foldl (RndBound.step η m) s).e * M + (ts.foldl (RndBound.step η m) s).f := by
  induction ts generalizing s xs is r with
  | nil =>
    have h : zs = is := h
    exact ⟨xs, by rw [h, his], hM, hr⟩
  | cons t ts ih =>
    obtain ⟨ys, h1, h2⟩ := h
    obtain ⟨f1, f2⟩ := hf
    obtain ⟨t1, t2, t3⟩ := hts t (by simp)
    have e1 : rndGain m t * (s.a * M + s.b) + rndAbs η t = (s.step η m t).a * M + (s.step η m t).b := by
      simp only [RndBound.step]; ring
    have e2 : stageGain m t * (s.e * M + s.f) + rndRel m t * (s.a * M + s.b) + rndAbs η t = (s.step η m t).e * M + (s.step η m t).f := by
      simp only [RndBound.step]; ring
    obtain ⟨yq, hyq, y1, y2⟩ := firStage_roundT hS t1 t2 t3 his h1 hM (by rw [e1]; exact f1) h0 hr
    rw [e1] at y1
    rw [e2] at y2
    refine ih (fun t ht => hts t (by simp [ht])) _ f2 hyq h2 y1 ?_ y2
    rw [← e2]
    have hM0 : 0 ≤ s.a * M + s.b := (abs_nonneg _).trans (hM 0)
    have g1 := stageGain_nonneg m t
    have g2 : 0 ≤ rndAbs η t := by
      unfold rndAbs
      have := hS.hη
      positivity
    have g3 : 0 ≤ rndRel m t := by
      unfold rndRel
      refine mul_nonneg ?_ g1
      have : 1 ≤ (1 + u32r) ^ (t.length + 5) := one_le_pow₀ (by unfold u32r; norm_num)
      linarith
    positivity

end Panda
