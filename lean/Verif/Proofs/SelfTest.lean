import Mathlib.Algebra.Order.Field.Basic
import Verif.Model.SelfTest
import Verif.Proofs.Exact
import Verif.Proofs.Construct

/-! # The self test -/

namespace Panda

section any

variable {F D : Type} [Zero F] [Add F] [Mul F] [Sample F]

/-- The products added up as `double`. -/
def wideSum (w : Wide F D) (x t : ℕ → F) : ℕ → D
  | 0 => w.zero
  | n + 1 => w.add (wideSum w x t n) (w.ofF (x n * t n))

omit [Zero F] [Add F] [Sample F] in
theorem firProcessOneSampleWide_eq (w : Wide F D) {input taps : Buf F} {off order : ℕ} (hi : off + order ≤ input.len)
    (ht : order ≤ taps.len) :
    firProcessOneSampleWide w input off taps order = .ok (wideSum w (fun i => input.get (off + i)) taps.get order) := by
  obtain ⟨a, ha, h⟩ := sat_forN (σ := D) (body := fun i out => do
      let x ← input.rd (off + i)
      let t ← taps.rd i
      pure (w.add out (w.ofF (x * t)))) (n := order) (s := w.zero)
      (fun i out => out = wideSum w (fun i => input.get (off + i)) taps.get i) rfl (by
        intro i hio s hs
        rw [Buf.rd_eq (by omega), Buf.rd_eq (by omega)]
        exact sat_ok (by rw [hs]; rfl))
  rw [firProcessOneSampleWide, ha, h]

/-- The taps of the self test. -/
def testTap (i : ℕ) : F := Sample.ofDouble ((i + 1 : ℕ) : ℚ)

/-- Difference of one output. -/
def testDiff (w : Wide F D) (rand : ℕ → F) (order j : ℕ) : D :=
  w.abs (w.sub (wideSum w (fun i => rand (j + i)) testTap order) (w.ofF (firVector rand testTap order j)))

/-- `is_error` -/
def testError (w : Wide F D) (rand : ℕ → F) (order : ℕ) : Bool :=
  w.tooBig (w.divN (w.add (w.add (w.add (w.add w.zero (testDiff w rand order 0)) (testDiff w rand order 1)) (testDiff w rand order 2))
    (testDiff w rand order 3)) (order + 1))

omit [Mul F] [Add F] [Sample F] in
theorem fill_ok (rand : ℕ → F) (addr n : ℕ) : ∃ m : Buf F, forN (fun i (m : Buf F) => m.wr i (rand i)) n ⟨addr, n, fun _ => 0⟩ = .ok m ∧
    m.addr = addr ∧ m.len = n ∧ ∀ i < n, m.get i = rand i := by
  refine sat_forN (fun i (m : Buf F) => m.addr = addr ∧ m.len = n ∧ ∀ j < i, m.get j = rand j) ⟨rfl, rfl, by simp⟩ ?_
  rintro i hi m ⟨h1, h2, h3⟩
  rw [Buf.wr_eq _ (by omega)]
  refine sat_ok ⟨h1, h2, fun j hj => ?_⟩
  rw [Buf.upd_get]
  split
  · rename_i e
    rw [e]
  · exact h3 j (by omega)

omit [Add F] [Zero F] [Sample F] in
theorem wideSum_congr (w : Wide F D) {x y t : ℕ → F} {n : ℕ} (h : ∀ i < n, x i = y i) : wideSum w x t n = wideSum w y t n := by
  induction n with
  | zero => rfl
  | succ n ih =>
    simp only [wideSum]
    rw [ih fun i hi => h i (by omega), h n (by omega)]

theorem firTestOrder_ok (al : Alloc) (k : ℕ) (w : Wide F D) (rand : ℕ → F) (order : ℕ) :
    firTestOrder al k w rand order = .ok (testError w rand order) := by
  unfold firTestOrder
  simp only
  obtain ⟨s, hs, hsa, hst⟩ := firComputeSseTaps_sat (aaAlign (al.malloc (2 * k))) (⟨0, order, testTap⟩ : Buf F)
  have hs' : firComputeSseTaps (aaAlign (al.malloc (2 * k))) (⟨0, order, fun i => Sample.ofDouble ((i + 1 : ℕ) : ℚ)⟩ : Buf F) = .ok s := hs
  rw [hs', ok_bind]
  obtain ⟨m, hm, hma, hml, hmg⟩ := fill_ok rand (aaAlign (al.malloc (2 * k + 1))) (order + 6)
  have a1 := aaAlign_mod (al.malloc (2 * k))
  have a2 := aaAlign_mod (al.malloc (2 * k + 1))
  rw [hm, ok_bind, firProcess4SamplesSse_eq hst (by omega) (by omega) (by simp only; omega), ok_bind]
  have hv : ∀ j, firVector (fun i => m.get (0 + i)) testTap order j = firVector rand testTap order j := fun j =>
    firVector_congr fun i hi => by
      rw [Nat.zero_add]
      exact hmg i (by omega)
  have hw : ∀ j < 4, firProcessOneSampleWide w m j (⟨0, order, fun i => Sample.ofDouble ((i + 1 : ℕ) : ℚ)⟩ : Buf F) order =
      .ok (wideSum w (fun i => rand (j + i)) testTap order) := by
    intro j hj
    rw [firProcessOneSampleWide_eq w (by omega) (by simp)]
    congr 1
    exact wideSum_congr w fun i hi => hmg _ (by omega)
  simp only [hv]
  simp only [forN, hw 0 (by omega), hw 1 (by omega), hw 2 (by omega), hw 3 (by omega), ok_bind, pure_bind, V4.lane]
  rfl

/-- How many random samples were generated before an order. -/
def drawn : ℕ → ℕ
  | 0 => 0
  | n + 1 => drawn n + (n + 6)

theorem firTestFilterSse_ok (al : Alloc) (w : Wide F D) (rand : ℕ → F) (n : ℕ) :
    ∃ b, firTestFilterSse al w rand n = .ok b ∧ (b = true ↔ ∀ o < n, testError w (fun i => rand (drawn o + i)) o = false) := by
  unfold firTestFilterSse
  obtain ⟨s, hs, h1, h2⟩ := sat_forN (body := fun order (s : ℕ × ℕ) => do
      let isError ← firTestOrder al order w (fun i => rand (s.1 + i)) order
      pure (s.1 + (order + 6), if isError then s.2 + 1 else s.2)) (n := n) (s := ((0 : ℕ), (0 : ℕ)))
    (fun o s => s.1 = drawn o ∧ (s.2 = 0 ↔ ∀ o' < o, testError w (fun i => rand (drawn o' + i)) o' = false)) ⟨rfl, by simp⟩ (by
      rintro o ho ⟨c, e⟩ ⟨h1, h2⟩
      simp only at h1 h2 ⊢
      subst h1
      rw [firTestOrder_ok, ok_bind]
      refine sat_ok ⟨rfl, ?_⟩
      simp only
      cases hb : testError w (fun i => rand (drawn o + i)) o
      · rw [if_neg (by simp), h2]
        constructor
        · intro h o' ho'
          rcases Nat.lt_succ_iff_lt_or_eq.1 ho' with h' | rfl
          · exact h o' h'
          · exact hb
        · exact fun h o' ho' => h o' (by omega)
      · rw [if_pos rfl]
        constructor
        · intro h
          omega
        · intro h
          have := h o (by omega)
          rw [hb] at this
          cases this)
  refine ⟨s.2 == 0, ?_, ?_⟩
  · rw [hs, ok_bind]
    rfl
  · rw [beq_iff_eq]
    exact h2

end any

section exact

variable {K : Type} [Field K] [LinearOrder K] [IsStrictOrderedRing K] [Sample K]

/-- `float` and `double` without rounding. -/
def wideExact (K : Type) [Field K] [LinearOrder K] : Wide K K where
  ofF x := x
  zero := 0
  add a b := a + b
  sub a b := a - b
  abs a := |a|
  divN a n := a / n
  tooBig a := decide (1 / 100000 < a)

omit [IsStrictOrderedRing K] [Sample K] in
theorem wideSum_exact (x t : ℕ → K) (n : ℕ) : wideSum (wideExact K) x t n = ∑ i ∈ Finset.range n, t i * x i := by
  induction n with
  | zero => rfl
  | succ n ih =>
    rw [Finset.sum_range_succ, ← ih, mul_comm (t n)]
    rfl

theorem testError_exact (rand : ℕ → K) (order : ℕ) : testError (wideExact K) rand order = false := by
  have h : ∀ j < 4, testDiff (wideExact K) rand order j = 0 := by
    intro j hj
    unfold testDiff
    rw [wideSum_exact, firVector_eq_sum _ _ _ _ hj]
    simp [wideExact]
  unfold testError
  rw [h 0 (by omega), h 1 (by omega), h 2 (by omega), h 3 (by omega)]
  simp [wideExact]

end exact

end Panda
