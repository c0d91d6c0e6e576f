import Verif.Proofs.SseDrift

/-!
# binary32 arithmetic with integers

All binary32 numbers are multiples of `2^-149`. Operations on these integers are fast enough for the kernel to evaluate long computations.
-/

namespace Panda

theorem ble_t {a b : ℕ} (h : a ≤ b) : Nat.ble a b = true := Nat.ble_eq_true_of_le h

theorem ble_f {a b : ℕ} (h : b < a) : Nat.ble a b = false := Bool.eq_false_iff.2 fun c => absurd (Nat.le_of_ble_eq_true c) (by omega)

/-- One bit of `log2`. -/
def lgStep (n a b : ℕ) : ℕ := bif Nat.ble (Nat.shiftLeft 1 (Nat.add a b)) n then Nat.add a b else a

/-- `log2` of a number below `2^512`. -/
def lgSearch (n : ℕ) : ℕ :=
  lgStep n (lgStep n (lgStep n (lgStep n (lgStep n (lgStep n (lgStep n (lgStep n (lgStep n 0 256) 128) 64) 32) 16) 8) 4) 2) 1

/-- `Nat.log2`, which the kernel does not evaluate fast. -/
def lg (n : ℕ) : ℕ :=
  bif Nat.ble (Nat.shiftLeft 1 (lgSearch n)) n && Nat.ble (Nat.succ n) (Nat.shiftLeft 2 (lgSearch n)) then lgSearch n else Nat.log2 n

theorem lg_eq (n : ℕ) : lg n = Nat.log2 n := by
  unfold lg
  generalize lgSearch n = l
  cases h : (Nat.ble (Nat.shiftLeft 1 l) n && Nat.ble (Nat.succ n) (Nat.shiftLeft 2 l))
  · rfl
  · rw [cond_true]
    rw [Bool.and_eq_true, Nat.ble_eq, Nat.ble_eq] at h
    obtain ⟨h1, h2⟩ := h
    have h1 : 1 <<< l ≤ n := h1
    have h2 : n + 1 ≤ 2 <<< l := h2
    rw [Nat.shiftLeft_eq] at h1 h2
    have hp : 0 < 2 ^ l := by positivity
    refine ((Nat.log2_eq_iff (by omega)).2 ⟨by omega, ?_⟩).symm
    rw [pow_succ]
    omega

/-- `n / 2^s` rounded to an integer, ties to even. -/
def rneNat (n s : ℕ) : ℕ :=
  let f := Nat.shiftRight n s
  let r := Nat.sub n (Nat.shiftLeft f s)
  bif Nat.ble (Nat.shiftLeft 1 s) (Nat.mul 2 r) then
    (bif Nat.beq (Nat.mul 2 r) (Nat.shiftLeft 1 s) then Nat.add f (Nat.mod f 2) else Nat.succ f)
  else f

theorem rneNat_eq (n s : ℕ) : rne ((n : ℚ) / 2 ^ s) = rneNat n s := by
  have hs : 0 < 2 ^ s := by positivity
  have hsq : (0 : ℚ) < 2 ^ s := by positivity
  have hk : (n : ℚ) = 2 ^ s * ((n / 2 ^ s : ℕ) : ℚ) + ((n % 2 ^ s : ℕ) : ℚ) := by exact_mod_cast (Nat.div_add_mod n (2 ^ s)).symm
  have r1 : ((n % 2 ^ s : ℕ) : ℚ) < 2 ^ s := by exact_mod_cast Nat.mod_lt n hs
  have hq : (n : ℚ) / 2 ^ s = ((n / 2 ^ s : ℕ) : ℚ) + ((n % 2 ^ s : ℕ) : ℚ) / 2 ^ s := by
    rw [div_eq_iff hsq.ne', add_mul, div_mul_cancel₀ _ hsq.ne']
    linarith
  have hf : ⌊(n : ℚ) / 2 ^ s⌋ = ((n / 2 ^ s : ℕ) : ℤ) := by
    rw [Int.floor_eq_iff, hq]
    have : ((n % 2 ^ s : ℕ) : ℚ) / 2 ^ s < 1 := (div_lt_one hsq).2 r1
    have : 0 ≤ ((n % 2 ^ s : ℕ) : ℚ) / 2 ^ s := by positivity
    rw [Int.cast_natCast]
    constructor <;> linarith
  have e1 : Nat.shiftRight n s = n / 2 ^ s := Nat.shiftRight_eq_div_pow n s
  have e2 : Nat.sub n (Nat.shiftLeft (n / 2 ^ s) s) = n % 2 ^ s := by
    show n - (n / 2 ^ s) <<< s = _
    rw [Nat.shiftLeft_eq, mul_comm]
    have := Nat.div_add_mod n (2 ^ s)
    omega
  have e3 : Nat.shiftLeft 1 s = 2 ^ s := by
    show 1 <<< s = _
    rw [Nat.shiftLeft_eq, one_mul]
  unfold rne rneNat
  simp only [hf, e1, e2, e3]
  have hd : (n : ℚ) / 2 ^ s - (((n / 2 ^ s : ℕ) : ℤ) : ℚ) = ((n % 2 ^ s : ℕ) : ℚ) / 2 ^ s := by rw [hq, Int.cast_natCast]; ring
  rw [hd]
  have c1 : ((n % 2 ^ s : ℕ) : ℚ) / 2 ^ s < 1 / 2 ↔ 2 * (n % 2 ^ s) < 2 ^ s := by
    rw [div_lt_div_iff₀ hsq (by norm_num), ← @Nat.cast_lt ℚ]
    push_cast
    constructor <;> intro h <;> linarith
  have c2 : 1 / 2 < ((n % 2 ^ s : ℕ) : ℚ) / 2 ^ s ↔ 2 ^ s < 2 * (n % 2 ^ s) := by
    rw [div_lt_div_iff₀ (by norm_num) hsq, ← @Nat.cast_lt ℚ]
    push_cast
    constructor <;> intro h <;> linarith
  simp only [c1, c2]
  generalize n % 2 ^ s = r
  generalize n / 2 ^ s = f
  show _ = ((bif Nat.ble (2 ^ s) (2 * r) then (bif Nat.beq (2 * r) (2 ^ s) then f + f % 2 else f + 1) else f : ℕ) : ℤ)
  rcases lt_trichotomy (2 * r) (2 ^ s) with h | h | h
  · rw [if_pos h, show Nat.ble (2 ^ s) (2 * r) = false from ble_f (by omega)]
    rfl
  · rw [if_neg (by omega), if_neg (by omega), show Nat.ble (2 ^ s) (2 * r) = true from ble_t (by omega),
      show Nat.beq (2 * r) (2 ^ s) = true from by rw [Nat.beq_eq]; exact h]
    simp only [cond_true]
    split_ifs <;> omega
  · rw [if_neg (by omega), if_pos h, show Nat.ble (2 ^ s) (2 * r) = true from ble_t (by omega),
      show Nat.beq (2 * r) (2 ^ s) = false from Bool.eq_false_iff.2 (by rw [Ne, Nat.beq_eq]; omega)]
    simp only [cond_true, cond_false]
    push_cast
    rfl

theorem rne_neg (q : ℚ) : rne (-q) = -rne q := by
  have h0 : (⌊q⌋ : ℚ) ≤ q := Int.floor_le q
  have h1 : q < ⌊q⌋ + 1 := Int.lt_floor_add_one q
  rcases h0.eq_or_lt with he | hlt
  · have hf : ⌊-q⌋ = -⌊q⌋ := by
      rw [Int.floor_eq_iff]
      push_cast
      constructor <;> linarith
    unfold rne
    simp only [hf]
    push_cast
    rw [if_pos (by linarith), if_pos (by linarith)]
  · have hf : ⌊-q⌋ = -⌊q⌋ - 1 := by
      rw [Int.floor_eq_iff]
      push_cast
      constructor <;> linarith
    unfold rne
    simp only [hf]
    push_cast
    rcases lt_trichotomy (q - ⌊q⌋) (1 / 2) with h | h | h
    · rw [if_neg (by linarith), if_pos (by linarith), if_pos h]
      ring
    · have g1 : ¬(q - ⌊q⌋ < 1 / 2) := by linarith
      have g2 : ¬(1 / 2 < q - ⌊q⌋) := by linarith
      have g3 : ¬(-q - (-(⌊q⌋ : ℚ) - 1) < 1 / 2) := by linarith
      have g4 : ¬(1 / 2 < -q - (-(⌊q⌋ : ℚ) - 1)) := by linarith
      rw [if_neg g1, if_neg g2, if_neg g3, if_neg g4]
      generalize ⌊q⌋ = f
      split_ifs <;> omega
    · rw [if_pos (by linarith), if_neg (by linarith), if_pos h]
      ring

theorem rnd32_neg' (q : ℚ) : rnd32 (-q) = -rnd32 q := by
  rcases eq_or_ne q 0 with rfl | h
  · simp [rnd32]
  have hu : ulpExp (-q) = ulpExp q := by
    unfold ulpExp ilog2
    simp
  unfold rnd32
  rw [if_neg h, if_neg (neg_ne_zero.2 h), hu, neg_div, rne_neg]
  push_cast
  ring

/-- `n 2^-(149+e)` rounded to binary32, as a multiple of `2^-149`. -/
def fxRnd (n e : ℕ) : ℕ :=
  bif Nat.ble (Nat.shiftLeft 1 (Nat.add e 24)) n then Nat.shiftLeft (rneNat n (Nat.sub (lg n) 23)) (Nat.sub (Nat.sub (lg n) 23) e)
  else rneNat n e

theorem fxRnd_eq (n e : ℕ) : rnd32 (n * 2 ^ (-149 - (e : ℤ))) = fxRnd n e * 2 ^ (-149 : ℤ) := by
  unfold fxRnd
  rw [lg_eq]
  rcases Nat.eq_zero_or_pos n with rfl | hk
  · have h0 : rneNat 0 e = 0 := by
      have := rneNat_eq 0 e
      simp [rne] at this
      exact_mod_cast this.symm
    have h1 : 0 < Nat.shiftLeft 1 (Nat.add e 24) := by
      show 0 < 1 <<< (e + 24)
      rw [Nat.shiftLeft_eq]
      positivity
    rw [ble_f h1, cond_false, h0]
    simp [rnd32]
  have hn : n ≠ 0 := hk.ne'
  have hne : (n : ℚ) * 2 ^ (-149 - (e : ℤ)) ≠ 0 := mul_ne_zero (by exact_mod_cast hn) (by positivity)
  have hlog : ilog2 ((n : ℚ) * 2 ^ (-149 - (e : ℤ))) = (Nat.log2 n : ℤ) - 149 - e := by
    have a1 : 2 ^ Nat.log2 n ≤ n := Nat.log2_self_le hn
    have a2 : n < 2 ^ (Nat.log2 n + 1) := Nat.lt_log2_self
    have b1 : (2 : ℚ) ^ Nat.log2 n ≤ (n : ℚ) := by exact_mod_cast a1
    have b2 : (n : ℚ) < (2 : ℚ) ^ (Nat.log2 n + 1) := by exact_mod_cast a2
    have hp : (0 : ℚ) < 2 ^ (-149 - (e : ℤ)) := by positivity
    refine ilog2_unique ?_ ?_ <;> rw [abs_of_nonneg (by positivity)]
    · rw [show (Nat.log2 n : ℤ) - 149 - e = (Nat.log2 n : ℤ) + (-149 - e) by ring, zpow_add₀ (by norm_num), zpow_natCast]
      exact mul_le_mul_of_nonneg_right b1 hp.le
    · rw [show (Nat.log2 n : ℤ) - 149 - e + 1 = ((Nat.log2 n + 1 : ℕ) : ℤ) + (-149 - e) by push_cast; ring,
        zpow_add₀ (by norm_num), zpow_natCast]
      exact mul_lt_mul_of_pos_right b2 hp
  have key : ∀ s : ℕ, (s : ℤ) = max ((Nat.log2 n : ℤ) - 23) e → rnd32 (n * 2 ^ (-149 - (e : ℤ))) = (rneNat n s * 2 ^ (s - e) : ℕ) * 2 ^ (-149 : ℤ) := by
    intro s hs
    have hu : ulpExp ((n : ℚ) * 2 ^ (-149 - (e : ℤ))) = (s : ℤ) - 149 - e := by
      unfold ulpExp
      rw [hlog]
      omega
    unfold rnd32
    rw [if_neg hne, hu]
    have e1 : (n : ℚ) * 2 ^ (-149 - (e : ℤ)) / 2 ^ ((s : ℤ) - 149 - e) = (n : ℚ) / 2 ^ s := by
      rw [div_eq_div_iff (by positivity) (by positivity), show (s : ℤ) - 149 - e = (s : ℤ) + (-149 - e) by ring, zpow_add₀ (by norm_num), zpow_natCast]
      ring
    rw [e1, rneNat_eq]
    have hes : e ≤ s := by omega
    have e2 : (2 : ℚ) ^ ((s : ℤ) - 149 - e) = 2 ^ (s - e) * 2 ^ (-149 : ℤ) := by
      rw [show (s : ℤ) - 149 - e = ((s - e : ℕ) : ℤ) + -149 by omega, zpow_add₀ (by norm_num), zpow_natCast]
    rw [e2]
    push_cast
    ring
  have hsh : Nat.shiftLeft 1 (Nat.add e 24) = 2 ^ (e + 24) := by
    show 1 <<< (e + 24) = _
    rw [Nat.shiftLeft_eq, one_mul]
  rcases Nat.lt_or_ge (e + 23) (Nat.log2 n) with hle | hle
  · have h1 : 2 ^ (e + 24) ≤ n := (Nat.pow_le_pow_right (by norm_num) hle).trans (Nat.log2_self_le hn)
    rw [hsh, ble_t h1, cond_true, key (Nat.log2 n - 23) (by omega)]
    congr 2
    exact (Nat.shiftLeft_eq _ _).symm
  · have h1 : n < 2 ^ (e + 24) := Nat.lt_log2_self.trans_le (Nat.pow_le_pow_right (by norm_num) (by omega))
    rw [hsh, ble_f h1, cond_false, key e (by omega), Nat.sub_self, pow_zero, mul_one]

/-- A binary32 number as sign and multiple of `2^-149`, or not finite. -/
inductive Fx where
  | p (n : ℕ)
  | m (n : ℕ)
  | bad
  deriving DecidableEq

namespace Fx

def neg : Fx → Fx
  | p n => m n
  | m n => p n
  | bad => bad

/-- Inf if the number is too large. -/
def fit : Fx → Fx
  | p n => bif Nat.ble (Nat.shiftLeft 1 277) n then bad else p n
  | m n => bif Nat.ble (Nat.shiftLeft 1 277) n then bad else m n
  | bad => bad

def add : Fx → Fx → Fx
  | p a, p b => fit (p (fxRnd (Nat.add a b) 0))
  | m a, m b => fit (m (fxRnd (Nat.add a b) 0))
  | p a, m b => bif Nat.ble b a then fit (p (fxRnd (Nat.sub a b) 0)) else fit (m (fxRnd (Nat.sub b a) 0))
  | m a, p b => bif Nat.ble a b then fit (p (fxRnd (Nat.sub b a) 0)) else fit (m (fxRnd (Nat.sub a b) 0))
  | bad, _ => bad
  | p _, bad => bad
  | m _, bad => bad

def mul : Fx → Fx → Fx
  | p a, p b => fit (p (fxRnd (Nat.mul a b) 149))
  | m a, m b => fit (p (fxRnd (Nat.mul a b) 149))
  | p a, m b => fit (m (fxRnd (Nat.mul a b) 149))
  | m a, p b => fit (m (fxRnd (Nat.mul a b) 149))
  | bad, _ => bad
  | p _, bad => bad
  | m _, bad => bad

instance : Zero Fx := ⟨p 0⟩
instance : One Fx := ⟨p 713623846352979940529142984724747568191373312⟩
instance : Add Fx := ⟨add⟩
instance : Sub Fx := ⟨fun a b => add a b.neg⟩
instance : Mul Fx := ⟨mul⟩

/-- The number. -/
def toFl : Fx → Fl binary32
  | p n => Fl.fin (n * 2 ^ (-149 : ℤ))
  | m n => Fl.fin (-(n * 2 ^ (-149 : ℤ)))
  | bad => none

theorem fits_iff (n : ℕ) : binary32.fits ((n : ℚ) * 2 ^ (-149 : ℤ)) = true ↔ n < 2 ^ 128 * 2 ^ 149 := by
  show decide (|(n : ℚ) * 2 ^ (-149 : ℤ)| < 2 ^ 128) = true ↔ _
  rw [decide_eq_true_iff, abs_of_nonneg (by positivity),
    show (2 : ℚ) ^ 128 = ((2 ^ 128 * 2 ^ 149 : ℕ) : ℚ) * 2 ^ (-149 : ℤ) by norm_num, mul_lt_mul_iff_left₀ (by positivity), Nat.cast_lt]

theorem shl_277 : Nat.shiftLeft 1 277 = 2 ^ 128 * 2 ^ 149 := by decide +kernel

theorem toFl_fit_p (n e : ℕ) : toFl (fit (p (fxRnd n e))) = Fl.mk binary32 (n * 2 ^ (-149 - (e : ℤ))) := by
  have h : binary32.rnd ((n : ℚ) * 2 ^ (-149 - (e : ℤ))) = fxRnd n e * 2 ^ (-149 : ℤ) := fxRnd_eq n e
  have hf := fits_iff (fxRnd n e)
  show toFl (bif Nat.ble (Nat.shiftLeft 1 277) (fxRnd n e) then bad else p (fxRnd n e)) = _
  rw [shl_277]
  by_cases hlt : fxRnd n e < 2 ^ 128 * 2 ^ 149
  · rw [show Nat.ble (2 ^ 128 * 2 ^ 149) (fxRnd n e) = false from ble_f hlt]
    have e2 : Fl.mk binary32 (n * 2 ^ (-149 - (e : ℤ))) = some (binary32.rnd ((n : ℚ) * 2 ^ (-149 - (e : ℤ)))) :=
      if_pos (by rw [h]; exact hf.2 hlt)
    rw [e2, h]
    rfl
  · rw [show Nat.ble (2 ^ 128 * 2 ^ 149) (fxRnd n e) = true from ble_t (not_lt.1 hlt)]
    have e2 : Fl.mk binary32 (n * 2 ^ (-149 - (e : ℤ))) = none := if_neg (by rw [h]; exact fun c => hlt (hf.1 c))
    rw [e2]
    rfl

theorem mk_neg (q : ℚ) : Fl.mk binary32 (-q) = (match Fl.mk binary32 q with | some y => Fl.fin (-y) | none => none) := by
  have hr : binary32.rnd (-q) = -binary32.rnd q := rnd32_neg' q
  have hf : ∀ y, binary32.fits (-y) = binary32.fits y := fun y => by
    show decide (|-y| < 2 ^ 128) = decide (|y| < 2 ^ 128)
    rw [abs_neg]
  by_cases h : binary32.fits (binary32.rnd q) = true
  · have e1 : Fl.mk binary32 q = some (binary32.rnd q) := if_pos h
    have e2 : Fl.mk binary32 (-q) = some (binary32.rnd (-q)) := if_pos (by rw [hr, hf]; exact h)
    rw [e1, e2, hr]
    rfl
  · have e1 : Fl.mk binary32 q = none := if_neg h
    have e2 : Fl.mk binary32 (-q) = none := if_neg (by rw [hr, hf]; exact h)
    rw [e1, e2]

theorem toFl_neg (a : Fx) : toFl a.neg = (match toFl a with | some y => Fl.fin (-y) | none => none) := by
  cases a with
  | p n => rfl
  | m n =>
    show Fl.fin _ = Fl.fin (- -_)
    rw [neg_neg]
  | bad => rfl

theorem fit_neg (a : Fx) : fit a.neg = (fit a).neg := by
  cases a with
  | p n =>
    show (bif _ then _ else _) = neg (bif _ then _ else _)
    cases Nat.ble (Nat.shiftLeft 1 277) n <;> rfl
  | m n =>
    show (bif _ then _ else _) = neg (bif _ then _ else _)
    cases Nat.ble (Nat.shiftLeft 1 277) n <;> rfl
  | bad => rfl

theorem toFl_fit_m (n e : ℕ) : toFl (fit (m (fxRnd n e))) = Fl.mk binary32 (-(n * 2 ^ (-149 - (e : ℤ)))) := by
  have : (m (fxRnd n e)) = (p (fxRnd n e)).neg := rfl
  rw [this, fit_neg, toFl_neg, toFl_fit_p, mk_neg]

theorem toFl_add (a b : Fx) : toFl (a + b) = toFl a + toFl b := by
  show toFl (add a b) = _
  have z : ∀ n : ℕ, (n : ℚ) * 2 ^ (-149 - ((0 : ℕ) : ℤ)) = n * 2 ^ (-149 : ℤ) := fun n => by norm_num
  cases a with
  | bad => rfl
  | p x =>
    cases b with
    | bad => rfl
    | p y =>
      show toFl (fit (p (fxRnd (x + y) 0))) = Fl.mk binary32 (x * 2 ^ (-149 : ℤ) + y * 2 ^ (-149 : ℤ))
      rw [toFl_fit_p, z]
      push_cast
      rw [add_mul]
    | m y =>
      show toFl (bif Nat.ble y x then fit (p (fxRnd (x - y) 0)) else fit (m (fxRnd (y - x) 0))) =
        Fl.mk binary32 (x * 2 ^ (-149 : ℤ) + -(y * 2 ^ (-149 : ℤ)))
      rcases Nat.lt_or_ge x y with h | h
      · rw [show Nat.ble y x = false from ble_f (by omega), cond_false, toFl_fit_m, z, Nat.cast_sub h.le]
        congr 1
        ring
      · rw [show Nat.ble y x = true from ble_t h, cond_true, toFl_fit_p, z, Nat.cast_sub h]
        congr 1
        ring
  | m x =>
    cases b with
    | bad => rfl
    | p y =>
      show toFl (bif Nat.ble x y then fit (p (fxRnd (y - x) 0)) else fit (m (fxRnd (x - y) 0))) =
        Fl.mk binary32 (-(x * 2 ^ (-149 : ℤ)) + y * 2 ^ (-149 : ℤ))
      rcases Nat.lt_or_ge y x with h | h
      · rw [show Nat.ble x y = false from ble_f (by omega), cond_false, toFl_fit_m, z, Nat.cast_sub h.le]
        congr 1
        ring
      · rw [show Nat.ble x y = true from ble_t h, cond_true, toFl_fit_p, z, Nat.cast_sub h]
        congr 1
        ring
    | m y =>
      show toFl (fit (m (fxRnd (x + y) 0))) = Fl.mk binary32 (-(x * 2 ^ (-149 : ℤ)) + -(y * 2 ^ (-149 : ℤ)))
      rw [toFl_fit_m, z]
      push_cast
      congr 1
      ring

theorem toFl_sub (a b : Fx) : toFl (a - b) = toFl a - toFl b := by
  show toFl (a + b.neg) = _
  rw [toFl_add, toFl_neg]
  cases h : toFl b with
  | none => cases toFl a <;> rfl
  | some y =>
    cases toFl a with
    | none => rfl
    | some x =>
      show Fl.mk binary32 (x + -y) = Fl.mk binary32 (x - y)
      rw [sub_eq_add_neg]

theorem toFl_mul (a b : Fx) : toFl (a * b) = toFl a * toFl b := by
  show toFl (mul a b) = _
  have z : ∀ x y : ℕ, ((x * y : ℕ) : ℚ) * 2 ^ (-149 - ((149 : ℕ) : ℤ)) = x * 2 ^ (-149 : ℤ) * (y * 2 ^ (-149 : ℤ)) := fun x y => by
    rw [show (-149 - ((149 : ℕ) : ℤ) : ℤ) = -149 + -149 by norm_num, zpow_add₀ (by norm_num)]
    push_cast
    ring
  cases a with
  | bad => rfl
  | p x =>
    cases b with
    | bad => rfl
    | p y =>
      show toFl (fit (p (fxRnd (x * y) 149))) = Fl.mk binary32 (x * 2 ^ (-149 : ℤ) * (y * 2 ^ (-149 : ℤ)))
      rw [toFl_fit_p, z]
    | m y =>
      show toFl (fit (m (fxRnd (x * y) 149))) = Fl.mk binary32 (x * 2 ^ (-149 : ℤ) * (-(y * 2 ^ (-149 : ℤ))))
      rw [toFl_fit_m, z, mul_neg]
  | m x =>
    cases b with
    | bad => rfl
    | p y =>
      show toFl (fit (m (fxRnd (x * y) 149))) = Fl.mk binary32 (-(x * 2 ^ (-149 : ℤ)) * (y * 2 ^ (-149 : ℤ)))
      rw [toFl_fit_m, z, neg_mul]
    | m y =>
      show toFl (fit (p (fxRnd (x * y) 149))) = Fl.mk binary32 (-(x * 2 ^ (-149 : ℤ)) * (-(y * 2 ^ (-149 : ℤ))))
      rw [toFl_fit_p, z, neg_mul_neg]

theorem toFl_zero : toFl 0 = 0 := by
  show Fl.fin ((0 : ℕ) * 2 ^ (-149 : ℤ)) = _
  rw [Nat.cast_zero, zero_mul]
  rfl

theorem toFl_one : toFl 1 = 1 := by
  show Fl.fin (((713623846352979940529142984724747568191373312 : ℕ) : ℚ) * 2 ^ (-149 : ℤ)) = _
  norm_num
  rfl

/-- The `Fx` of a number. -/
def ofFl : Fl binary32 → Fx
  | some q => if 0 ≤ q then p (q * 2 ^ 149).num.natAbs else m (q * 2 ^ 149).num.natAbs
  | none => bad

theorem chainNext_toFl (as : List Fx) (x : Fx) (l : List Fx) :
    chainNext (as.map toFl) (toFl x) (l.map toFl) = (chainNext as x l).map toFl := by
  induction as generalizing x l with
  | nil => rfl
  | cons a as ih =>
    cases l with
    | nil => rfl
    | cons p l =>
      cases l with
      | nil => rfl
      | cons q l =>
        simp only [List.map_cons, chainNext]
        rw [← toFl_sub, ← toFl_mul, ← toFl_add, ← ih]
        simp only [List.map_cons]

end Fx

end Panda
