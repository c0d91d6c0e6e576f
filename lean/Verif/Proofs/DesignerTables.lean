import Verif.Proofs.DelayConst

/-! # The designer computes the tables -/

namespace Panda.Designer

/-! ## Transition parameters -/

theorem tan_sq (φ : ℝ) (hφ : Real.cos φ ≠ 0) : Real.tan φ * Real.tan φ = (1 - Real.cos (2 * φ)) / (1 + Real.cos (2 * φ)) := by
  rw [Real.cos_two_mul, Real.tan_eq_sin_div_cos]
  have h := Real.sin_sq_add_cos_sq φ
  have h1 : Real.sin φ * Real.sin φ = 1 - Real.cos φ ^ 2 := by linarith [pow_two (Real.sin φ)]
  have h2 : 1 + (2 * Real.cos φ ^ 2 - 1) ≠ 0 := by
    ring_nf
    positivity
  rw [div_mul_div_comm, h1, div_eq_div_iff (by positivity) h2]
  ring

theorem rpow_quarter {x : ℝ} (hx : 0 ≤ x) : x ^ (0.25 : ℝ) = Real.sqrt (Real.sqrt x) := by
  rw [Real.sqrt_eq_rpow, Real.sqrt_eq_rpow, ← Real.rpow_mul hx]
  norm_num

/-- `k` and `q` for a stage. -/
def paramIv (stage : ℕ) : Option (Iv × Iv) := do
  let c := ((Iv.pi.nsmul 40).divN (49 * stage)).cos
  let k ← (Iv.one.sub c).div (Iv.one.add c)
  let s ← (Iv.one.sub (k.mul k)).sqrt
  let s ← s.sqrt
  let e ← (Iv.one.sub s).div ((Iv.one.add s).nsmul 2)
  let e2 := e.mul e
  let e4 := e2.mul e2
  let q := e.mul (Iv.one.add (e4.mul ((Iv.one.nsmul 2).add (e4.mul ((Iv.one.nsmul 15).add (e4.nsmul 150))))))
  pure (k, q)

/-- Transition bandwidth of a stage. -/
noncomputable def stageTbw (stage : ℕ) : ℝ := (44100 * stage / 2 / 2 - 18000) / (44100 * stage / 2)

theorem stageTbw_bounds {stage : ℕ} (h : stage ∈ [2, 4, 8]) : 0 < stageTbw stage ∧ stageTbw stage < 1 / 2 ∧
    (1 - stageTbw stage * 2) * PI / 4 = 20 * PI / (49 * stage) := by
  simp only [List.mem_cons, List.not_mem_nil, or_false] at h
  unfold stageTbw
  rcases h with rfl | rfl | rfl <;> norm_num <;> ring

theorem bindOk {α β : Type} {x : Option α} {f : α → Option β} {b : β} (h : (x >>= f) = some b) : ∃ a, x = some a ∧ f a = some b :=
  Option.bind_eq_some_iff.1 h

theorem paramIv_has {stage : ℕ} (h : stage ∈ [2, 4, 8]) {K Q : Iv} (hp : paramIv stage = some (K, Q)) :
    K.Has (kOf (stageTbw stage)) ∧ Q.Has (nome (stageTbw stage)) := by
  obtain ⟨t0, t1, ht⟩ := stageTbw_bounds h
  have hs0 : 0 < stage := by
    simp only [List.mem_cons, List.not_mem_nil, or_false] at h
    omega
  have hs2 : (2 : ℝ) ≤ stage := by
    simp only [List.mem_cons, List.not_mem_nil, or_false] at h
    have : 2 ≤ stage := by omega
    exact_mod_cast this
  obtain ⟨k0, k1⟩ := kOf_bounds t0 t1
  have hPI := PI_lt_pi
  have hPI0 := PI_pos
  have hpi4 := Real.pi_lt_four
  unfold paramIv at hp
  simp only at hp
  obtain ⟨K', hK, hp⟩ := bindOk hp
  obtain ⟨s1, hs1, hp⟩ := bindOk hp
  obtain ⟨s2, hs2', hp⟩ := bindOk hp
  obtain ⟨e, he, hp⟩ := bindOk hp
  obtain ⟨rfl, rfl⟩ := Prod.mk.inj (Option.some.inj hp)
  have hc : (((Iv.pi.nsmul 40).divN (49 * stage)).cos).Has (Real.cos (40 * PI / (49 * stage))) := by
    have h := ((has_PI.nsmul 40).divN (by omega : 0 < 49 * stage))
    push_cast at h
    refine h.cos ?_
    rw [abs_of_nonneg (by positivity), div_le_iff₀ (by positivity)]
    nlinarith
  have HK : K'.Has (kOf (stageTbw stage)) := by
    have := ((Iv.has_one.sub hc).div (Iv.has_one.add hc) hK).1
    unfold kOf
    rw [ht, tan_sq]
    · rw [show 2 * (20 * PI / (49 * (stage : ℝ))) = 40 * PI / (49 * stage) by ring]
      exact this
    · refine (Real.cos_pos_of_mem_Ioo ⟨?_, ?_⟩).ne'
      · have : 0 ≤ 20 * PI / (49 * (stage : ℝ)) := by positivity
        linarith [Real.pi_pos]
      · rw [div_lt_div_iff₀ (by positivity) (by norm_num)]
        nlinarith [Real.pi_pos]
  refine ⟨HK, ?_⟩
  have hpos : 0 ≤ 1 - kOf (stageTbw stage) * kOf (stageTbw stage) := by nlinarith
  have S1 := (((Iv.has_one.sub (HK.mul HK)).sqrt hs1).1.sqrt hs2').1
  rw [← rpow_quarter hpos] at S1
  have E := ((Iv.has_one.sub S1).div ((Iv.has_one.add S1).nsmul 2) he).1
  have eE : (1 - (1 - kOf (stageTbw stage) * kOf (stageTbw stage)) ^ (0.25 : ℝ)) /
      ((2 : ℕ) * (1 + (1 - kOf (stageTbw stage) * kOf (stageTbw stage)) ^ (0.25 : ℝ))) = eOf (kOf (stageTbw stage)) := by
    unfold eOf
    rw [div_eq_div_iff]
    · push_cast
      ring
    · positivity
    · positivity
  rw [eE] at E
  have E4 := (E.mul E).mul (E.mul E)
  have := E.mul (Iv.has_one.add (E4.mul ((Iv.has_one.nsmul 2).add (E4.mul ((Iv.has_one.nsmul 15).add (E4.nsmul 150))))))
  convert this using 1
  unfold nome qOf
  push_cast
  ring

/-! ## Number of coefficients -/

theorem realOrder_le {att q : ℝ} (h : 0 < att) (h0 : 0 < q) (h1 : q < 1) (n : ℕ) :
    realOrder att q ≤ n ↔ 16 * q ^ n ≤ aOf att * aOf att := by
  have ha := aOf_pos h
  unfold realOrder
  rw [div_le_iff_of_neg (Real.log_neg h0 h1), ← Real.log_pow, Real.log_le_log_iff (by positivity) (by positivity),
    le_div_iff₀ (by norm_num), mul_comm]

/-- `m / 10 ^ e` and `(m + 1) / 10 ^ e` enclose the power of an attenuation of `6 bits` dB. -/
def powerCert : ℕ → ℤ × ℕ
  | 8 => (1584893192461113485202101373391, 35)
  | 12 => (630957344480193249434360136622, 37)
  | 16 => (2511886431509580111085032067799, 40)
  | 20 => (10000000000000000000000000000, 40)
  | 24 => (3981071705534972507702523050, 42)
  | _ => (0, 0)

def powerIv (bits : ℕ) : Iv := ⟨(Iv.rat (powerCert bits).1 (10 ^ (powerCert bits).2)).lo, (Iv.rat ((powerCert bits).1 + 1) (10 ^ (powerCert bits).2)).hi⟩

theorem powerCert_ok : ∀ b ∈ [8, 12, 16, 20, 24], 0 ≤ (powerCert b).1 ∧
    (powerCert b).1 ^ 5 * 10 ^ (3 * b) ≤ (10 : ℤ) ^ ((powerCert b).2 * 5) ∧
    (10 : ℤ) ^ ((powerCert b).2 * 5) ≤ ((powerCert b).1 + 1) ^ 5 * 10 ^ (3 * b) := by
  decide +kernel

theorem powerIv_has {b : ℕ} (hb : b ∈ [8, 12, 16, 20, 24]) : (powerIv b).Has ((10 : ℝ) ^ (-((b * 6 : ℕ) : ℝ) / 10)) := by
  obtain ⟨c0, c1, c2⟩ := powerCert_ok b hb
  have hx : (0 : ℝ) < (10 : ℝ) ^ (-((b * 6 : ℕ) : ℝ) / 10) := by positivity
  have hx5 : ((10 : ℝ) ^ (-((b * 6 : ℕ) : ℝ) / 10)) ^ 5 * 10 ^ (3 * b) = 1 := by
    rw [← Real.rpow_natCast ((10 : ℝ) ^ (-((b * 6 : ℕ) : ℝ) / 10)) 5, ← Real.rpow_mul (by norm_num), ← Real.rpow_natCast (10 : ℝ) (3 * b),
      ← Real.rpow_add (by norm_num)]
    rw [show -((b * 6 : ℕ) : ℝ) / 10 * (5 : ℕ) + ((3 * b : ℕ) : ℝ) = 0 by push_cast; ring, Real.rpow_zero]
  unfold powerIv
  generalize (10 : ℝ) ^ (-((b * 6 : ℕ) : ℝ) / 10) = x at hx hx5
  generalize (powerCert b).1 = m at *
  generalize (powerCert b).2 = e at *
  have hE : (0 : ℝ) < 10 ^ e := by positivity
  have hB : (0 : ℝ) < 10 ^ (3 * b) := by positivity
  have d1 : (m : ℝ) ^ 5 * 10 ^ (3 * b) ≤ (10 ^ e) ^ 5 := by rw [← pow_mul]; exact_mod_cast c1
  have d2 : ((10 : ℝ) ^ e) ^ 5 ≤ ((m : ℝ) + 1) ^ 5 * 10 ^ (3 * b) := by rw [← pow_mul]; exact_mod_cast c2
  have m0 : (0 : ℝ) ≤ m := by exact_mod_cast c0
  have k : ((x * 10 ^ e) ^ 5) * 10 ^ (3 * b) = (10 ^ e) ^ 5 := by
    rw [mul_pow]
    linear_combination ((10 : ℝ) ^ e) ^ 5 * hx5
  rw [← k] at d1 d2
  have l1 : (m : ℝ) ≤ x * 10 ^ e := (pow_le_pow_iff_left₀ m0 (by positivity) (by norm_num)).1 (le_of_mul_le_mul_right d1 hB)
  have l2 : x * 10 ^ e ≤ (m : ℝ) + 1 := (pow_le_pow_iff_left₀ (by positivity) (by linarith) (by norm_num)).1 (le_of_mul_le_mul_right d2 hB)
  have hE' : (0 : ℤ) < 10 ^ e := by positivity
  have a1 := (Iv.has_rat (a := m) hE' (x := m / 10 ^ e) (by push_cast; field_simp)).1
  have a2 := (Iv.has_rat (a := m + 1) hE' (x := (m + 1) / 10 ^ e) (by push_cast; field_simp)).2
  refine ⟨a1.trans ?_, le_trans ?_ a2⟩
  · exact mul_le_mul_of_nonneg_right ((div_le_iff₀ hE).2 l1) (by positivity)
  · exact mul_le_mul_of_nonneg_right ((le_div_iff₀ hE).2 l2) (by positivity)

/-- The order is `2 n + 1`. -/
def orderCheck (stage bits n : ℕ) : Bool :=
  match paramIv stage, (powerIv bits).div (Iv.one.sub (powerIv bits)) with
  | some (_, Q), some A =>
    decide (((Q.pow (2 * n + 1)).nsmul 16).hi ≤ (A.mul A).lo) &&
      decide ((A.mul A).hi < ((Q.pow (if n = 1 then 0 else 2 * n - 1)).nsmul 16).lo)
  | _, _ => false

theorem orderCheck_ok : ∀ k ∈ [2, 4, 8], ∀ p ∈ [8, 12, 16, 20, 24], 0 < (iirTab k p).length ∧ (iirTab k p).length ≤ 9 ∧ orderCheck k p (iirTab k p).length = true := by
  decide +kernel

theorem fixOrder_between {m n : ℤ} (h1 : m ≤ 2 * n + 1) (h2 : 2 * n ≤ m ∨ n = 1 ∧ 1 ≤ m) (hn : 1 ≤ n) : fixOrder m = 2 * n + 1 := by
  unfold fixOrder
  split <;> split at * <;> omega

theorem mkNbrCoefs_table (bld : Build) {k p : ℕ} (hk : k ∈ [2, 4, 8]) (hp : p ∈ [8, 12, 16, 20, 24]) :
    mkNbrCoefs bld k p = .ok ((iirTab k p).length : ℤ) := by
  obtain ⟨n0, n9, hc⟩ := orderCheck_ok k hk p hp
  obtain ⟨t0, t1, -⟩ := stageTbw_bounds hk
  obtain ⟨q0, q1⟩ := nome_bounds t0 t1
  have hatt : (0 : ℝ) < ((p * 6 : ℕ) : ℝ) := by
    simp only [List.mem_cons, List.not_mem_nil, or_false] at hp
    have : 0 < p * 6 := by omega
    exact_mod_cast this
  generalize (iirTab k p).length = n at *
  show computeNbrCoefsFromProto bld ((p * 6 : ℕ) : ℝ) (stageTbw k) = _
  rw [nbr_eq bld hatt t0 t1]
  unfold orderCheck at hc
  split at hc
  · rename_i K Q A hQ hA
    simp only [Bool.and_eq_true, decide_eq_true_eq] at hc
    have HQ := (paramIv_has hk hQ).2
    have HP := powerIv_has hp
    have HA : A.Has (aOf ((p * 6 : ℕ) : ℝ)) := (HP.div (Iv.has_one.sub HP) hA).1
    have A2 := HA.mul HA
    have U := (HQ.pow (2 * n + 1)).nsmul 16
    have L := (HQ.pow (if n = 1 then 0 else 2 * n - 1)).nsmul 16
    have r1 : realOrder ((p * 6 : ℕ) : ℝ) (nome (stageTbw k)) ≤ (2 * n + 1 : ℕ) := by
      rw [realOrder_le hatt q0 (by linarith)]
      have : (((Q.pow (2 * n + 1)).nsmul 16).hi : ℝ) ≤ ((A.mul A).lo : ℝ) := by exact_mod_cast hc.1
      have := (U.2.trans this).trans A2.1
      rw [show ((16 : ℕ) : ℝ) = 16 by norm_num] at this
      exact le_of_mul_le_mul_right this (by positivity)
    have r2 : (((if n = 1 then 0 else 2 * n - 1) : ℕ) : ℝ) < realOrder ((p * 6 : ℕ) : ℝ) (nome (stageTbw k)) := by
      rw [← not_le, realOrder_le hatt q0 (by linarith), not_le]
      have : ((A.mul A).hi : ℝ) < (((Q.pow (if n = 1 then 0 else 2 * n - 1)).nsmul 16).lo : ℝ) := by exact_mod_cast hc.2
      have := (A2.2.trans_lt this).trans_le L.1
      rw [show ((16 : ℕ) : ℝ) = 16 by norm_num] at this
      exact lt_of_mul_lt_mul_right this (by positivity)
    generalize realOrder ((p * 6 : ℕ) : ℝ) (nome (stageTbw k)) = x at r1 r2
    have b1 : ⌈x⌉ ≤ ((2 * n + 1 : ℕ) : ℤ) := Int.ceil_le.2 (by exact_mod_cast r1)
    have b2 : (((if n = 1 then 0 else 2 * n - 1) : ℕ) : ℤ) < ⌈x⌉ := Int.lt_ceil.2 (by exact_mod_cast r2)
    have e : fixOrder ⌈x⌉ = 2 * n + 1 := by
      refine fixOrder_between (by push_cast at b1; exact b1) ?_ (by exact_mod_cast n0)
      split at b2 <;> push_cast at b2 <;> omega
    have hci : ceilInt x = .ok ⌈x⌉ := by
      unfold ceilInt
      rw [if_pos ⟨by omega, by omega⟩]
      rfl
    rw [hci]
    show Except.ok ((fixOrder ⌈x⌉ - 1).tdiv 2) = _
    rw [e, add_sub_cancel_right, Int.mul_tdiv_cancel_left _ (by norm_num)]
  · simp at hc

/-! ## Coefficients -/

theorem series_tail {f : ℕ → ℝ} {q : ℝ} {e : ℕ → ℕ} (h0 : 0 ≤ q) (h1 : q ≤ 1 / 2) (hf : ∀ i, |f i| ≤ q ^ e i) {M : ℕ}
    (he : ∀ j, e M + j ≤ e (M + j)) (n : ℕ) : |∑ i ∈ Finset.range (M + n), f i - ∑ i ∈ Finset.range M, f i| ≤ 2 * q ^ e M := by
  have key : |∑ i ∈ Finset.range (M + n), f i - ∑ i ∈ Finset.range M, f i| ≤ (2 - 2 * (1 / 2) ^ n) * q ^ e M := by
    induction n with
    | zero => simp
    | succ n ih =>
      rw [← add_assoc, Finset.sum_range_succ, add_sub_right_comm]
      refine (abs_add_le _ _).trans ?_
      have t : |f (M + n)| ≤ (1 / 2) ^ n * q ^ e M := by
        calc |f (M + n)| ≤ q ^ e (M + n) := hf _
          _ ≤ q ^ (e M + n) := pow_le_pow_of_le_one h0 (by linarith) (he n)
          _ = q ^ n * q ^ e M := by rw [pow_add, mul_comm]
          _ ≤ (1 / 2) ^ n * q ^ e M := mul_le_mul_of_nonneg_right (pow_le_pow_left₀ h0 h1 n) (pow_nonneg h0 _)
      have : (2 - 2 * (1 / 2 : ℝ) ^ (n + 1)) * q ^ e M = (2 - 2 * (1 / 2) ^ n) * q ^ e M + (1 / 2) ^ n * q ^ e M := by
        rw [pow_succ]
        ring
      linarith
  refine key.trans (mul_le_mul_of_nonneg_right ?_ (pow_nonneg h0 _))
  have : (0 : ℝ) < (1 / 2) ^ n := by positivity
  linarith

/-- An interval made larger on both sides. -/
def _root_.Panda.Iv.widen (I : Iv) (d : ℤ) : Iv := ⟨I.lo - d, I.hi + d⟩

theorem _root_.Panda.Iv.Has.widen {I J : Iv} {x y z : ℝ} (hx : I.Has x) (hz : J.Has z) (h : |y - x| ≤ z) : (I.widen J.hi).Has y := by
  obtain ⟨a, b⟩ := hx
  obtain ⟨h1, h2⟩ := abs_le.1 h
  have hS : (0 : ℝ) < 10 ^ 40 := by positivity
  have := hz.2
  unfold Iv.widen Iv.Has
  push_cast
  generalize (10 : ℝ) ^ 40 = S at *
  constructor <;> nlinarith

def numTermIv (Q : Iv) (order c i : ℕ) : Iv :=
  let t := (Q.pow (i * (i + 1))).mul (((Iv.pi.nsmul ((i * 2 + 1) * c)).divN order).sin)
  if i % 2 = 0 then t else t.neg

def denTermIv (Q : Iv) (order c i : ℕ) : Iv :=
  let t := (Q.pow ((i + 1) * (i + 1))).mul (((Iv.pi.nsmul ((i + 1) * 2 * c)).divN order).cos)
  if i % 2 = 0 then t.neg else t

def sumIv (f : ℕ → Iv) : ℕ → Iv
  | 0 => ⟨0, 0⟩
  | n + 1 => (sumIv f n).add (f n)

theorem sumIv_has {F : ℕ → Iv} {f : ℕ → ℝ} (h : ∀ i, i < 3 → (F i).Has (f i)) : ∀ {n : ℕ}, n ≤ 3 → (sumIv F n).Has (∑ i ∈ Finset.range n, f i)
  | 0, _ => by simp [sumIv, Iv.Has]
  | n + 1, hn => by
    rw [Finset.sum_range_succ]
    exact (sumIv_has h (by omega)).add (h n (by omega))

theorem angle_le {a order : ℕ} (ha : a ≤ 1000) (ho : 0 < order) : |(a : ℝ) * PI / order| ≤ 2 ^ 29 := by
  have h1 : (1 : ℝ) ≤ order := by exact_mod_cast ho
  have h2 : (a : ℝ) ≤ 1000 := by exact_mod_cast ha
  have h3 := PI_pos
  have h4 := PI_lt_pi.trans Real.pi_lt_four
  have h5 : (0 : ℝ) ≤ a := by positivity
  rw [abs_of_nonneg (by positivity), div_le_iff₀ (by linarith)]
  nlinarith

theorem numTermIv_has {Q : Iv} {q : ℝ} (hq : Q.Has q) {order c i : ℕ} (ho : 0 < order) (hc : c ≤ 100) (hi : i < 3) :
    (numTermIv Q order c i).Has (numTerm q order c i) := by
  have hs := ((has_PI.nsmul ((i * 2 + 1) * c)).divN ho).sin (angle_le (by nlinarith) ho)
  have := (hq.pow (i * (i + 1))).mul hs
  unfold numTermIv numTerm
  rcases Nat.mod_two_eq_zero_or_one i with h | h
  · rw [if_pos h, Even.neg_one_pow (Nat.even_iff.2 h)]
    convert this using 2
    push_cast
    ring
  · rw [if_neg (by omega), Odd.neg_one_pow (Nat.odd_iff.2 h)]
    convert this.neg using 1
    push_cast
    ring

theorem denTermIv_has {Q : Iv} {q : ℝ} (hq : Q.Has q) {order c i : ℕ} (ho : 0 < order) (hc : c ≤ 100) (hi : i < 3) :
    (denTermIv Q order c i).Has (denTerm q order c i) := by
  have hs := ((has_PI.nsmul ((i + 1) * 2 * c)).divN ho).cos ((angle_le (by nlinarith) ho).trans (by norm_num))
  have := (hq.pow ((i + 1) * (i + 1))).mul hs
  unfold denTermIv denTerm
  rcases Nat.mod_two_eq_zero_or_one i with h | h
  · rw [if_pos h, Even.neg_one_pow (Nat.even_iff.2 h)]
    convert this.neg using 1
    push_cast
    ring
  · rw [if_neg (by omega), Odd.neg_one_pow (Nat.odd_iff.2 h)]
    convert this using 2
    push_cast
    ring

/-- Not so small that the loop ends. -/
def _root_.Panda.Iv.big (I : Iv) : Bool := decide (1 ≤ I.lo) || decide (I.hi ≤ -1)

theorem _root_.Panda.Iv.Has.big {I : Iv} {x : ℝ} (hx : I.Has x) (h : I.big = true) : 1e-100 < |x| := by
  have hS : (0 : ℝ) < 10 ^ 40 := by positivity
  have e : (1e-100 : ℝ) < 1 / 10 ^ 40 := by norm_num
  refine e.trans_le ?_
  simp only [Iv.big, Bool.or_eq_true, decide_eq_true_eq] at h
  rw [div_le_iff₀ hS]
  rcases h with h | h
  · have : (1 : ℝ) ≤ I.lo := by exact_mod_cast h
    exact (this.trans hx.1).trans (mul_le_mul_of_nonneg_right (le_abs_self x) hS.le)
  · have : (I.hi : ℝ) ≤ -1 := by exact_mod_cast h
    have := hx.2.trans this
    have := mul_le_mul_of_nonneg_right (neg_le_abs x) hS.le
    linarith

/-- Sum of a series of which `M` terms are evaluated. -/
def seriesIv (F : ℕ → Iv) (Q : Iv) (e M : ℕ) : Option Iv :=
  if (List.range (M - 1)).all (fun i => (F i).big) then some ((sumIv F M).widen ((Q.pow e).nsmul 2).hi) else none

theorem seriesIv_has {F : ℕ → Iv} {Q I : Iv} {f : ℕ → ℝ} {q : ℝ} {e : ℕ → ℕ} (hq : Q.Has q) (h0 : 0 ≤ q) (h1 : q ≤ 1 / 2)
    (hF : ∀ i, i < 3 → (F i).Has (f i)) (hf : ∀ i, |f i| ≤ q ^ e i) {M : ℕ} (hM : M ≤ 3) (he : ∀ j, e M + j ≤ e (M + j))
    (h : seriesIv F Q (e M) M = some I) {n : ℕ} (hn : |f n| ≤ 1e-100) : I.Has (∑ i ∈ Finset.range (n + 1), f i) := by
  unfold seriesIv at h
  split at h
  · rename_i hb
    rw [List.all_eq_true] at hb
    have hMn : M ≤ n + 1 := by
      by_contra hc
      have hi : n < M - 1 := by omega
      exact absurd hn (not_le.2 ((hF n (by omega)).big (hb n (List.mem_range.2 hi))))
    obtain ⟨j, hj⟩ := Nat.exists_eq_add_of_le hMn
    rw [hj, ← Option.some.inj h]
    exact (sumIv_has hF hM).widen ((hq.pow (e M)).nsmul 2) (by
      rw [show ((2 : ℕ) : ℝ) = 2 by norm_num]
      exact series_tail h0 h1 hf he j)
  · cases h

/-- `compute_coef` -/
def coefIv (K Q : Iv) (order c M M' : ℕ) : Option Iv := do
  let num ← seriesIv (numTermIv Q order c) Q (M * (M + 1)) M
  let r ← Q.sqrt
  let r ← r.sqrt
  let den ← seriesIv (denTermIv Q order c) Q ((M' + 1) * (M' + 1)) M'
  let ww ← (num.mul r).div (den.add (Iv.rat 1 2))
  let w := ww.mul ww
  let wk ← w.div K
  let x ← ((Iv.one.sub (w.mul K)).mul (Iv.one.sub wk)).sqrt
  let x ← x.div (Iv.one.add w)
  (Iv.one.sub x).div (Iv.one.add x)

theorem exists_small {q : ℝ} (h0 : 0 < q) (h1 : q ≤ 1 / 2) : q ^ (19 * 20) ≤ (1e-100 : ℝ) := by
  refine (pow_le_pow_left₀ h0.le h1 _).trans ?_
  rw [show 19 * 20 = 4 * 95 by norm_num, pow_mul]
  have : ((1 / 2 : ℝ) ^ 4) ^ 95 ≤ (1 / 10) ^ 95 := by gcongr; norm_num
  have e : ((1 / 2 : ℝ) ^ 4) ^ 95 = (1 / 16) ^ 95 := by norm_num
  rw [e, show (95 : ℕ) = 19 * 5 by norm_num, pow_mul]
  norm_num

theorem coefIv_has (bld : Build) {K Q I : Iv} {k q : ℝ} (hk : K.Has k) (hq : Q.Has q) (h0 : 0 < q) (h1 : q ≤ 1 / 2) {index n M M' : ℕ}
    (hi : index < n) (hn : n ≤ 50) (hM : M ≤ 3) (hM' : M' ≤ 3) (h : coefIv K Q (2 * n + 1) (index + 1) M M' = some I) :
    ∃ a, computeCoef bld index k q (n * 2 + 1) = .ok a ∧ I.Has a := by
  unfold coefIv at h
  obtain ⟨num, hnum, h⟩ := bindOk h
  obtain ⟨r1, hr1, h⟩ := bindOk h
  obtain ⟨r2, hr2, h⟩ := bindOk h
  obtain ⟨den, hden, h⟩ := bindOk h
  obtain ⟨ww, hww, h⟩ := bindOk h
  simp only at h
  obtain ⟨wk, hwk, h⟩ := bindOk h
  obtain ⟨x1, hx1, h⟩ := bindOk h
  obtain ⟨x2, hx2, h⟩ := bindOk h
  have eo : ((2 * n + 1 : ℕ) : ℤ) = n * 2 + 1 := by push_cast; ring
  have ec : ((index + 1 : ℕ) : ℤ) = index + 1 := by push_cast; ring
  have hs := exists_small h0 h1
  obtain ⟨m1, -, s1, -, e1⟩ := accNum_ok bld (q := q) (order := n * 2 + 1) (c := index + 1) (by omega) (by omega) (by omega) (N := 19) (by norm_num) (by omega)
    ((abs_numTerm_le h0.le _ _ _).trans hs)
  obtain ⟨m2, -, s2, -, e2⟩ := accDen_ok bld (q := q) (order := n * 2 + 1) (c := index + 1) (by omega) (by omega) (by omega) (N := 19) (by norm_num) (by omega)
    ((abs_denTerm_le h0.le _ _ _).trans ((pow_le_pow_of_le_one h0.le (by linarith) (by norm_num)).trans hs))
  have H1 := seriesIv_has (f := numTerm q (n * 2 + 1) (index + 1)) (e := fun i => i * (i + 1)) hq h0.le h1
    (fun i hi => by
      have := numTermIv_has hq (order := 2 * n + 1) (c := index + 1) (by omega) (by omega) hi
      rwa [eo, ec] at this) (abs_numTerm_le h0.le _ _) hM (fun j => by nlinarith [Nat.zero_le (M * j), Nat.zero_le (j * j)]) hnum s1
  have H2 := seriesIv_has (f := denTerm q (n * 2 + 1) (index + 1)) (e := fun i => (i + 1) * (i + 1)) hq h0.le h1
    (fun i hi => by
      have := denTermIv_has hq (order := 2 * n + 1) (c := index + 1) (by omega) (by omega) hi
      rwa [eo, ec] at this) (abs_denTerm_le h0.le _ _) hM' (fun j => by nlinarith [Nat.zero_le (M' * j), Nat.zero_le (j * j)]) hden s2
  have HR := ((hq.sqrt hr1).1.sqrt hr2).1
  rw [← rpow_quarter h0.le] at HR
  obtain ⟨H3, p3⟩ := (H1.mul HR).div (H2.add (Iv.has_rat (a := 1) (b := 2) (by norm_num) (x := 0.5) (by norm_num))) hww
  obtain ⟨H4, p4⟩ := (H3.mul H3).div hk hwk
  obtain ⟨H5, p5⟩ := ((Iv.has_one.sub ((H3.mul H3).mul hk)).mul (Iv.has_one.sub H4)).sqrt hx1
  obtain ⟨H6, p6⟩ := H5.div (Iv.has_one.add (H3.mul H3)) hx2
  obtain ⟨H7, p7⟩ := (Iv.has_one.sub H6).div (Iv.has_one.add H6) h
  refine ⟨_, ?_, H7⟩
  unfold computeCoef
  rw [assertP_ok (by omega), ok_bind, assertP_ok (by omega), ok_bind]
  simp only
  rw [e1, ok_bind, powR_ok h0.le, ok_bind, e2, ok_bind, divR_ok p3.ne', ok_bind, divR_ok p4.ne', ok_bind, sqrtR_ok p5, ok_bind,
    divR_ok p6.ne', ok_bind, divR_ok p7.ne']

/-- How many terms are needed. -/
def terms (stage : ℕ) : ℕ := if stage = 2 then 3 else 2

/-- All coefficients of a table agree with the designer up to `tol` units. -/
def coefCheck (stage bits : ℕ) (tol : ℤ) : Bool :=
  match paramIv stage with
  | none => false
  | some (K, Q) => decide (Q.hi * 2 ≤ Iv.S) && (List.range (iirTab stage bits).length).all fun i =>
    match coefIv K Q (2 * (iirTab stage bits).length + 1) (i + 1) (terms stage) (terms stage) with
    | none => false
    | some I =>
      let d := (iirTab stage bits).getD i ⟨0, 0⟩
      let D := I.sub (Iv.rat d.m (10 ^ d.e))
      decide (-tol ≤ D.lo) && decide (D.hi ≤ tol)

theorem coef_checks : ∀ k ∈ [2, 4, 8], ∀ p ∈ [8, 12, 16, 20, 24], coefCheck k p (10 ^ 28) = true := by
  decide +kernel

theorem computeCoef_table (bld : Build) {k p : ℕ} (hk : k ∈ [2, 4, 8]) (hp : p ∈ [8, 12, 16, 20, 24]) {i : ℕ}
    (hi : i < (iirTab k p).length) : ∃ a, computeCoef bld i (kOf (stageTbw k)) (nome (stageTbw k)) ((iirTab k p).length * 2 + 1) = .ok a ∧
      |a - (((iirTab k p).getD i ⟨0, 0⟩).toRat : ℝ)| ≤ 1 / 10 ^ 12 := by
  have hc := coef_checks k hk p hp
  obtain ⟨-, n9, -⟩ := orderCheck_ok k hk p hp
  obtain ⟨t0, t1, -⟩ := stageTbw_bounds hk
  obtain ⟨q0, -⟩ := nome_bounds t0 t1
  unfold coefCheck at hc
  split at hc
  · cases hc
  rename_i K Q hKQ
  obtain ⟨HK, HQ⟩ := paramIv_has hk hKQ
  rw [Bool.and_eq_true, decide_eq_true_eq, List.all_eq_true] at hc
  have hc2 := hc.2 i (List.mem_range.2 hi)
  have q1 : nome (stageTbw k) ≤ 1 / 2 := by
    have h1 : ((Q.hi * 2 : ℤ) : ℝ) ≤ 10 ^ 40 := by
      rw [← Iv.S_real]
      exact_mod_cast hc.1
    push_cast at h1
    have h2 := HQ.2
    have : nome (stageTbw k) * 10 ^ 40 ≤ 1 / 2 * 10 ^ 40 := by linarith
    exact le_of_mul_le_mul_right this (by positivity)
  split at hc2
  · cases hc2
  rename_i I hI
  have ht : terms k ≤ 3 := by
    unfold terms
    split <;> omega
  obtain ⟨a, ha, HI⟩ := coefIv_has bld HK HQ q0 q1 hi (by omega) ht ht hI
  refine ⟨a, ha, ?_⟩
  generalize (iirTab k p).getD i ⟨0, 0⟩ = d at hc2 ⊢
  simp only [Bool.and_eq_true, decide_eq_true_eq] at hc2
  have hd : (Iv.rat d.m (10 ^ d.e)).Has (d.toRat : ℝ) := by
    refine Iv.has_rat (by positivity) ?_
    unfold Dec.toRat
    rw [Rat.mkRat_eq_div]
    push_cast
    field_simp
  have H := HI.sub hd
  have b1 : ((-10 ^ 28 : ℤ) : ℝ) ≤ ((I.sub (Iv.rat d.m (10 ^ d.e))).lo : ℝ) := by exact_mod_cast hc2.1
  have b2 : ((I.sub (Iv.rat d.m (10 ^ d.e))).hi : ℝ) ≤ ((10 ^ 28 : ℤ) : ℝ) := by exact_mod_cast hc2.2
  have c1 := b1.trans H.1
  have c2 := H.2.trans b2
  push_cast at c1 c2
  rw [abs_le]
  constructor
  · linarith
  · linarith

/-! ## The loop over the coefficients -/

theorem coefLoop_ok (bld : Build) {k q : ℝ} {n : ℕ} {v : ℕ → ℝ} (h : ∀ i < n, computeCoef bld i k q (n * 2 + 1) = .ok (v i)) (arr : Buf ℝ)
    (hl : n ≤ arr.len) : ∃ arr', coefLoop bld arr n k q (n * 2 + 1) = .ok arr' ∧ arr'.addr = arr.addr ∧ arr'.len = arr.len ∧
      (∀ i < n, arr'.get i = v i) ∧ ∀ i, n ≤ i → arr'.get i = arr.get i := by
  unfold coefLoop
  rw [Int.toNat_natCast]
  refine sat_forN (fun m (a : Buf ℝ) => a.addr = arr.addr ∧ a.len = arr.len ∧ (∀ i < m, a.get i = v i) ∧ ∀ i, m ≤ i → a.get i = arr.get i)
    ⟨rfl, rfl, by simp, fun _ _ => rfl⟩ ?_
  rintro m hm a ⟨h1, h2, h3, h4⟩
  refine ⟨a.upd m (v m), ?_, h1, h2, ?_, ?_⟩
  · simp only [h m hm, ok_bind]
    simp [Buf.wr, show m < a.len by omega]
  · intro i hi
    by_cases e : i = m
    · simp [Buf.upd, e]
    · simpa [Buf.upd, e] using h3 i (by omega)
  · intro i hi
    have e : i ≠ m := by omega
    simpa [Buf.upd, e] using h4 i (by omega)

theorem design_table (bld : Build) {k p : ℕ} (hk : k ∈ [2, 4, 8]) (hp : p ∈ [8, 12, 16, 20, 24]) (arr : Buf ℝ)
    (hl : (iirTab k p).length ≤ arr.len) :
    ∃ arr', computeCoefsSpecOrderTbw bld arr (iirTab k p).length (stageTbw k) = .ok arr' ∧ arr'.addr = arr.addr ∧ arr'.len = arr.len ∧
      (∀ i < (iirTab k p).length, |arr'.get i - (((iirTab k p).getD i ⟨0, 0⟩).toRat : ℝ)| ≤ 1 / 10 ^ 12) ∧
      ∀ i, (iirTab k p).length ≤ i → arr'.get i = arr.get i := by
  obtain ⟨n0, n9, -⟩ := orderCheck_ok k hk p hp
  obtain ⟨t0, t1, -⟩ := stageTbw_bounds hk
  choose v hv using fun i : Fin (iirTab k p).length => computeCoef_table bld hk hp i.2
  obtain ⟨arr', h1, h2, h3, h4, h5⟩ := coefLoop_ok bld (k := kOf (stageTbw k)) (q := nome (stageTbw k)) (n := (iirTab k p).length)
    (v := fun i => if h : i < (iirTab k p).length then v ⟨i, h⟩ else 0) (fun i hi => by rw [dif_pos hi]; exact (hv ⟨i, hi⟩).1) arr hl
  refine ⟨arr', ?_, h2, h3, fun i hi => ?_, h5⟩
  · unfold computeCoefsSpecOrderTbw
    rw [assertP_ok (by exact_mod_cast n0), ok_bind, assertP_ok t0, ok_bind, assertP_ok (by norm_num; linarith), ok_bind,
      transition_ok bld t0 t1, ok_bind, int32_ok (by omega) (by omega), ok_bind]
    exact h1
  · rw [h4 i hi, dif_pos hi]
    exact (hv ⟨i, hi⟩).2

/-! ## Group delay of the computed coefficients -/

/-- Group delay of a cell whose coefficient is within `10 ^ -12` of `d`. -/
def cellIv (C : Iv) (d : Dec) : Option Iv :=
  let a := (Iv.rat d.m (10 ^ d.e)).widen (10 ^ 28)
  let a2 := a.mul a
  if 0 ≤ a.lo && a.hi < Iv.S then ((Iv.one.sub a2).nsmul 2).div ((a2.add ((a.nsmul 2).mul C)).add Iv.one) else none

def gdIv (C : Iv) (l : List Dec) : ℕ → Option Iv
  | 0 => some ⟨0, 0⟩
  | m + 1 => do
    let r ← gdIv C l m
    let t ← cellIv C (l.getD (2 * m) ⟨0, 0⟩)
    pure (r.add t)

theorem cellIv_has {C I : Iv} {f : ℝ} (hC : C.Has (Real.cos (2 * (2 * PI * f)))) {d : Dec} (h : cellIv C d = some I) {a : ℝ}
    (ha : |a - (d.toRat : ℝ)| ≤ 1 / 10 ^ 12) : I.Has (delayOf a f false) ∧ 0 ≤ a ∧ a < 1 := by
  have hd : (Iv.rat d.m (10 ^ d.e)).Has (d.toRat : ℝ) := by
    refine Iv.has_rat (by positivity) ?_
    unfold Dec.toRat
    rw [Rat.mkRat_eq_div]
    push_cast
    field_simp
  have H : ((Iv.rat d.m (10 ^ d.e)).widen (10 ^ 28)).Has a :=
    hd.widen (J := ⟨10 ^ 28, 10 ^ 28⟩) (z := 1 / 10 ^ 12) (by constructor <;> norm_num) ha
  unfold cellIv at h
  simp only at h
  split at h
  · rename_i hb
    simp only [Bool.and_eq_true, decide_eq_true_eq] at hb
    have h2 := H.mul H
    have h3 := (((Iv.has_one.sub h2).nsmul 2).div ((h2.add ((H.nsmul 2).mul hC)).add Iv.has_one) h).1
    refine ⟨?_, ?_, ?_⟩
    · unfold delayOf
      convert h3 using 1
      norm_num
    · have : (0 : ℝ) ≤ a * 10 ^ 40 := le_trans (by exact_mod_cast hb.1) H.1
      exact nonneg_of_mul_nonneg_left this (by positivity)
    · have : a * 10 ^ 40 < 1 * 10 ^ 40 := by
        refine H.2.trans_lt ?_
        rw [one_mul, ← Iv.S_real]
        exact_mod_cast hb.2
      exact lt_of_mul_lt_mul_right this (by positivity)
  · cases h

theorem gdIv_has {C : Iv} {f : ℝ} (hC : C.Has (Real.cos (2 * (2 * PI * f)))) {l : List Dec} {g : ℕ → ℝ} : ∀ {m : ℕ} {I : Iv},
    (∀ i < m, |g (2 * i) - ((l.getD (2 * i) ⟨0, 0⟩).toRat : ℝ)| ≤ 1 / 10 ^ 12) → gdIv C l m = some I →
    I.Has (∑ i ∈ Finset.range m, delayOf (g (2 * i)) f false)
  | 0, I, _, h => by
    obtain rfl := Option.some.inj h
    simp [Iv.Has]
  | m + 1, I, hg, h => by
    unfold gdIv at h
    obtain ⟨r, hr, h⟩ := bindOk h
    obtain ⟨t, ht, h⟩ := bindOk h
    obtain rfl := Option.some.inj h
    rw [Finset.sum_range_succ]
    exact (gdIv_has hC (fun i hi => hg i (by omega)) hr).add (cellIv_has hC ht (hg m (by omega))).1

/-- All coefficients are in range, and the group delay is that of the source up to half a unit of the last digit printed. -/
def gdCheck (k p : ℕ) : Bool :=
  (iirTab k p).all (fun d => (cellIv (angleIv k).cos d).isSome) &&
  match gdIv (angleIv k).cos (iirTab k p) (((iirTab k p).length + 1) / 2) with
  | none => false
  | some I =>
    let D := I.sub (Iv.rat (iirGd k p).m (10 ^ (iirGd k p).e))
    decide (-(5 * 10 ^ 33) ≤ D.lo) && decide (D.hi ≤ 5 * 10 ^ 33)

theorem gd_checks : ∀ k ∈ [2, 4, 8], ∀ p ∈ [8, 12, 16, 20, 24], gdCheck k p = true := by
  decide +kernel

theorem mkGroupDelay_near (bld : Build) {k p : ℕ} (hk : k ∈ [2, 4, 8]) (hp : p ∈ [8, 12, 16, 20, 24]) (arr : Buf ℝ)
    (hl : (iirTab k p).length ≤ arr.len)
    (ha : ∀ i < (iirTab k p).length, |arr.get i - (((iirTab k p).getD i ⟨0, 0⟩).toRat : ℝ)| ≤ 1 / 10 ^ 12) :
    ∃ d, mkGroupDelay bld k arr (iirTab k p).length = .ok d ∧ |d - ((iirGd k p).toRat : ℝ)| ≤ 1 / 2 * (1 / 10 ^ 6) := by
  obtain ⟨n0, -, -⟩ := orderCheck_ok k hk p hp
  have hc := gd_checks k hk p hp
  have hk0 : 0 < k := by
    simp only [List.mem_cons, List.not_mem_nil, or_false] at hk
    omega
  have hk1 : (1 : ℝ) ≤ k := by exact_mod_cast hk0
  unfold gdCheck at hc
  rw [Bool.and_eq_true, List.all_eq_true] at hc
  obtain ⟨hc1, hc2⟩ := hc
  have hC : (angleIv k).cos.Has (Real.cos (2 * (2 * PI * (1000 / (44100 * (k : ℝ)))))) := by
    rw [show 2 * (2 * PI * (1000 / (44100 * (k : ℝ)))) = 40 * PI / (441 * k) by field_simp; ring]
    exact angle_has has_PI hk0
  have hr : ∀ i < (iirTab k p).length, 0 ≤ arr.get i ∧ arr.get i < 1 := by
    intro i hi
    have e : (iirTab k p).getD i ⟨0, 0⟩ = (iirTab k p)[i] := by simp [hi]
    obtain ⟨I, hI⟩ := Option.isSome_iff_exists.1 (hc1 _ (List.getElem_mem hi))
    rw [← e] at hI
    exact (cellIv_has hC hI (ha i hi)).2
  unfold mkGroupDelay
  rw [groupDelay_ok bld _ n0 hl hr (by positivity) (by rw [div_lt_div_iff₀ (by positivity) (by norm_num)]; linarith) false]
  refine ⟨_, rfl, ?_⟩
  split at hc2
  · cases hc2
  rename_i I hI
  have H1 := gdIv_has hC (fun i hi => ha (2 * i) (by omega)) hI
  have H2 : (Iv.rat (iirGd k p).m (10 ^ (iirGd k p).e)).Has ((iirGd k p).toRat : ℝ) := by
    refine Iv.has_rat (by positivity) ?_
    unfold Dec.toRat
    rw [Rat.mkRat_eq_div]
    push_cast
    field_simp
  have H := H1.sub H2
  simp only [Bool.and_eq_true, decide_eq_true_eq] at hc2
  have c1 : ((-(5 * 10 ^ 33) : ℤ) : ℝ) ≤ _ := le_trans (by exact_mod_cast hc2.1) H.1
  have c2 : _ ≤ ((5 * 10 ^ 33 : ℤ) : ℝ) := le_trans H.2 (by exact_mod_cast hc2.2)
  push_cast at c1 c2
  rw [abs_le]
  constructor
  · linarith
  · linarith

end Panda.Designer
