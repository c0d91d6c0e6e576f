import Verif.Proofs.DesignerRange
import Verif.Proofs.DesignerDelay
import Verif.Proofs.DesignerGdly

/-! # The functions of the designer are total -/

namespace Panda.Designer

/-- `compute_coefs` -/
theorem computeCoefs_ok (bld : Build) {att t : ℝ} (ha0 : 1 ≤ att) (ha1 : att ≤ 10 ^ 7) (h0 : 0 < t) (h1 : t < 1 / 2) :
    ∃ n : ℕ, 0 < n ∧ n ≤ 2 ^ 25 ∧ computeNbrCoefsFromProto bld att t = .ok n ∧ ∀ arr : Buf ℝ, n ≤ arr.len →
      ∃ arr', computeCoefs bld arr att t = .ok (n, arr') ∧ computeCoefsSpecOrderTbw bld arr n t = .ok arr' := by
  obtain ⟨q0, q1⟩ := nome_bounds h0 h1
  obtain ⟨e1, c0⟩ := nbr_ok bld ha0 (ha1.trans (by norm_num)) h0 h1
  have c1 : ⌈realOrder att (nome t)⌉ ≤ 2 * 10 ^ 7 + 10 := by
    rw [Int.ceil_le]
    push_cast
    linarith [(realOrder_bounds ha0 q0 q1).2]
  have c2 := fixOrder_le (n := ⌈realOrder att (nome t)⌉)
  have c3 := fixOrder_pos c0
  have c4 := half_order (n := ⌈realOrder att (nome t)⌉)
  obtain ⟨n, hn⟩ : ∃ n : ℕ, (fixOrder ⌈realOrder att (nome t)⌉ - 1).tdiv 2 = n := ⟨_, (Int.toNat_of_nonneg (by omega)).symm⟩
  rw [hn] at c4 e1
  have n0 : 0 < n := by omega
  have n1 : n ≤ 2 ^ 25 := by omega
  refine ⟨n, n0, n1, e1, fun arr hl => ?_⟩
  obtain ⟨arr', e2, -⟩ := design_range bld h0 h1 n0 n1 arr hl
  refine ⟨arr', ?_, e2⟩
  unfold computeCoefsSpecOrderTbw at e2
  rw [assertP_ok (by exact_mod_cast n0), ok_bind, assertP_ok h0, ok_bind, assertP_ok (by norm_num; linarith), ok_bind,
    transition_ok bld h0 h1, ok_bind, int32_ok (by omega) (by omega), ok_bind] at e2
  unfold computeCoefs
  rw [assertP_ok (by linarith), ok_bind, assertP_ok h0, ok_bind, assertP_ok (by norm_num; linarith), ok_bind,
    transition_ok bld h0 h1, ok_bind]
  show (computeOrder bld att (nome t) >>= _) = _
  rw [order_eq bld (by linarith) q0 (by linarith)]
  have : ceilInt (realOrder att (nome t)) = .ok ⌈realOrder att (nome t)⌉ := by
    unfold ceilInt
    rw [if_pos ⟨by omega, by omega⟩]
    rfl
  rw [this, ok_bind, pure_bind']
  simp only
  rw [hn, ← c4, e2]
  rfl

/-- A step of the bisection does not fail. -/
theorem bisectBody_total (bld : Build) {n : ℕ} (n0 : 0 < n) (n1 : n ≤ 2 ^ 25) {g f prec : ℝ} (f0 : 0 ≤ f) (f1 : f < 1 / 2) {s : Bisect}
    (hl : n ≤ s.coefArr.len) (h0 : 0 < s.lbTbw) (h01 : s.lbTbw < s.ubTbw) (h1 : s.ubTbw < 1 / 2) :
    ∃ s', bisectBody bld n g f prec s = .ok s' ∧ s'.coefArr.addr = s.coefArr.addr ∧ s'.coefArr.len = s.coefArr.len ∧
      (∀ i, n ≤ i → s'.coefArr.get i = s.coefArr.get i) ∧ (∀ i < n, 0 < s'.coefArr.get i ∧ s'.coefArr.get i < 1) ∧
      0 < s'.lbTbw ∧ s'.lbTbw < s'.ubTbw ∧ s'.ubTbw < 1 / 2 ∧ s'.nbrIt = s.nbrIt + 1 := by
  have t0 : s.lbTbw < (s.ubTbw + s.lbTbw) * 0.5 := by norm_num; linarith
  have t1 : (s.ubTbw + s.lbTbw) * 0.5 < s.ubTbw := by norm_num; linarith
  unfold bisectBody
  generalize (s.ubTbw + s.lbTbw) * 0.5 = T at t0 t1
  obtain ⟨arr', e1, e2, e3, e4, e5⟩ := design_range bld (h0.trans t0) (t1.trans h1) n0 n1 s.coefArr hl
  simp only
  rw [attenTbw_ok bld (h0.trans t0) (t1.trans h1) (by exact_mod_cast n0) (by omega), ok_bind, e1, ok_bind,
    groupDelay_ok bld arr' n0 (by omega) (fun i hi => ⟨(e4 i hi).1.le, (e4 i hi).2⟩) f0 f1 false, ok_bind]
  refine ⟨_, rfl, e2, e3, e5, e4, ?_, ?_, ?_, rfl⟩
  · dsimp only
    split_ifs <;> linarith
  · dsimp only
    split_ifs <;> linarith
  · dsimp only
    split_ifs <;> linarith

/-- A loop with a bounded counter ends. -/
theorem whileU_total {σ : Type} {cond : σ → Bool} {body : σ → Res σ} {I : σ → Prop} {μ : σ → ℕ} {N : ℕ}
    (hc : ∀ s, I s → cond s = true → μ s < N)
    (hb : ∀ s, I s → cond s = true → ∃ s', body s = .ok s' ∧ I s' ∧ μ s' = μ s + 1) :
    ∀ {s : σ}, I s → ∃ s', whileU cond body s = .ok s' ∧ I s' := by
  have key : ∀ d : ℕ, ∀ s, I s → N - μ s = d → ∃ s', whileU cond body s = .ok s' ∧ I s' := by
    intro d
    induction d with
    | zero =>
      intro s hs hd
      have : cond s = false := by
        by_contra h
        have := hc s hs (by simpa using h)
        omega
      refine ⟨s, ?_, hs⟩
      rw [whileU_step, if_neg (by simp [this])]
      rfl
    | succ d ih =>
      intro s hs hd
      by_cases h : cond s = true
      · obtain ⟨s1, e1, i1, m1⟩ := hb s hs h
        obtain ⟨s2, e2, i2⟩ := ih s1 i1 (by omega)
        refine ⟨s2, ?_, i2⟩
        rw [whileU_step, if_pos h, e1, ok_bind, e2]
      · refine ⟨s, ?_, hs⟩
        rw [whileU_step, if_neg h]
        rfl
  exact fun {s} hs => key _ s hs rfl

/-- `compute_coefs_spec_order_gdly` below half the sample rate. -/
theorem gdly_total (bld : Build) (stack1 stack2 : ℕ → ℝ) (arr : Buf ℝ) {n : ℕ} (n0 : 0 < n) (n1 : n ≤ 256) (hl : n ≤ arr.len)
    {g f prec attLb attUb lb ub : ℝ} (hg : 0 < g) (f0 : 0 ≤ f) (f1 : f < 1 / 2) (hp : 0 < prec) (ha : 0 < attLb) (hab : attLb < attUb)
    (h0 : 0 < lb) (h01 : lb < ub) (h1 : ub < 1 / 2) :
    ∃ r, computeCoefsSpecOrderGdly bld stack1 stack2 arr n g f prec attLb attUb lb ub = .ok r ∧
      r.coefArr.addr = arr.addr ∧ r.coefArr.len = arr.len ∧ (∀ i, n ≤ i → r.coefArr.get i = arr.get i) ∧
      (r.code ≠ .failGdTbw → ∀ i < n, 0 < r.coefArr.get i ∧ r.coefArr.get i < 1) := by
  unfold computeCoefsSpecOrderGdly
  rw [assertP_ok (by exact_mod_cast n0), ok_bind, assertP_ok (by exact_mod_cast n1), ok_bind, assertP_ok hg, ok_bind, assertP_ok f0, ok_bind,
    assertP_ok (by linarith), ok_bind, assertP_ok hp, ok_bind, assertP_ok ha, ok_bind, assertP_ok hab, ok_bind, assertP_ok h0, ok_bind,
    assertP_ok h01, ok_bind, assertP_ok (by norm_num; linarith), ok_bind]
  obtain ⟨ua, u1, -, u3, u4, -⟩ := design_range bld (h0.trans h01) h1 n0 (by omega) ⟨0, 256, stack2⟩ n1
  obtain ⟨la, l1, -, l3, l4, -⟩ := design_range bld h0 (h01.trans h1) n0 (by omega) ⟨0, 256, stack1⟩ n1
  rw [u1, ok_bind, l1, ok_bind, groupDelay_ok bld ua n0 (by rw [u3]; exact n1) (fun i hi => ⟨(u4 i hi).1.le, (u4 i hi).2⟩) f0 f1 false, ok_bind,
    groupDelay_ok bld la n0 (by rw [l3]; exact n1) (fun i hi => ⟨(l4 i hi).1.le, (l4 i hi).2⟩) f0 f1 false, ok_bind]
  split
  · exact ⟨_, rfl, rfl, rfl, fun _ _ => rfl, fun h => absurd rfl h⟩
  simp only
  generalize ∑ i ∈ Finset.range ((n + 1) / 2), delayOf (la.get (2 * i)) f false = lg
  obtain ⟨s1, b1, b2, b3, b4, b5, b6, b7, b8, b9⟩ := bisectBody_total bld n0 (by omega) (g := g) (prec := prec) f0 f1
    (s := ⟨arr, lb, ub, lg, 0, 0, 0, 0, false⟩) hl h0 h01 h1
  rw [b1, ok_bind]
  obtain ⟨s2, w1, w2, w3, w4, w5, -⟩ := whileU_total (cond := fun s : Bisect => s.convFlag && decide (s.nbrIt < 1000))
    (body := bisectBody bld n g f prec) (μ := fun s : Bisect => s.nbrIt) (N := 1000)
    (I := fun s : Bisect => s.coefArr.addr = arr.addr ∧ s.coefArr.len = arr.len ∧ (∀ i, n ≤ i → s.coefArr.get i = arr.get i) ∧
      (∀ i < n, 0 < s.coefArr.get i ∧ s.coefArr.get i < 1) ∧ 0 < s.lbTbw ∧ s.lbTbw < s.ubTbw ∧ s.ubTbw < 1 / 2)
    (fun s _ hc => by simp only [Bool.and_eq_true, decide_eq_true_eq] at hc; exact hc.2)
    (fun s hI _ => by
      obtain ⟨i1, i2, i3, i4, i5, i6, i7⟩ := hI
      obtain ⟨s', c1, c2, c3, c4, c5, c6, c7, c8, c9⟩ := bisectBody_total bld n0 (by omega) (g := g) (prec := prec) f0 f1 (s := s)
        (by rw [i2]; exact hl) i5 i6 i7
      exact ⟨s', c1, ⟨c2.trans i1, c3.trans i2, fun i hi => (c4 i hi).trans (i3 i hi), c5, c6, c7, c8⟩, c9⟩)
    (s := s1) ⟨b2, b3, b4, b5, b6, b7, b8⟩
  rw [w1, ok_bind]
  split
  · exact ⟨_, rfl, w2, w3, w4, fun _ => w5⟩
  · split
    · exact ⟨_, rfl, w2, w3, w4, fun _ => w5⟩
    · exact ⟨_, rfl, w2, w3, w4, fun _ => w5⟩

end Panda.Designer
