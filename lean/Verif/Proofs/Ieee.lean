import Verif.Model.SelfTest
import Verif.Proofs.Float
import Verif.Spec.Ieee

/-!
# Rounding to binary32 and binary64 as in IEEE 754
-/

namespace Panda

open Spec

/-- Exponent of the last place. -/
def expG (k : ℕ) (emin : ℤ) (q : ℚ) : ℤ := max (ilog2 q - k) emin

/-- Rounding to `k + 1` bits. -/
def rndG (k : ℕ) (emin : ℤ) (q : ℚ) : ℚ := if q = 0 then 0 else (rne (q / 2 ^ expG k emin q) : ℤ) * 2 ^ expG k emin q

theorem rnd32_eq (q : ℚ) : rnd32 q = rndG 23 (-149) q := rfl

theorem rnd64_eq (q : ℚ) : rnd64 q = rndG 52 (-1074) q := rfl

variable {k : ℕ} {emin : ℤ}

theorem abs_scale (q : ℚ) (u z : ℤ) : |(z : ℚ) * 2 ^ u - q| = |(z : ℚ) - q / 2 ^ u| * 2 ^ u := by
  have hp : (0 : ℚ) < 2 ^ u := by positivity
  rw [← abs_of_pos hp, ← abs_mul, abs_of_pos hp]
  congr 1
  field_simp

theorem abs_rne_le {q : ℚ} (hq : q ≠ 0) : |rne (q / 2 ^ expG k emin q)| ≤ 2 ^ (k + 1) := by
  have hp : (0 : ℚ) < 2 ^ expG k emin q := by positivity
  have h1 : |q / 2 ^ expG k emin q| < 2 ^ (k + 1) := by
    rw [abs_div, abs_of_pos hp, div_lt_iff₀ hp]
    refine (ilog2_spec hq).2.trans_le ?_
    rw [← zpow_natCast, ← zpow_add₀ (by norm_num)]
    refine zpow_le_zpow_right₀ (by norm_num) ?_
    have := le_max_left (ilog2 q - k) emin
    unfold expG
    push_cast
    omega
  have h2 := rne_err (q / 2 ^ expG k emin q)
  have h3 : |(rne (q / 2 ^ expG k emin q) : ℚ)| < 2 ^ (k + 1) + 1 := by
    have := abs_sub_abs_le_abs_sub (rne (q / 2 ^ expG k emin q) : ℚ) (q / 2 ^ expG k emin q)
    linarith
  have h4 : |rne (q / 2 ^ expG k emin q)| < 2 ^ (k + 1) + 1 := by exact_mod_cast h3
  omega

/-- A significand up to `2^(k+1)` is representable, with the same parity. -/
theorem evenSig_of {m e : ℤ} (hk : 0 < k) (hm : |m| ≤ 2 ^ (k + 1)) (he : emin ≤ e) :
    Representable (k + 1) emin (m * 2 ^ e) ∧ (m % 2 = 0 → EvenSig (k + 1) emin (m * 2 ^ e)) := by
  rcases hm.lt_or_eq with h | h
  · exact ⟨⟨m, e, h, he, rfl⟩, fun h2 => ⟨m, e, h, he, h2, rfl⟩⟩
  · obtain ⟨j, rfl⟩ : ∃ j, k = j + 1 := ⟨k - 1, by omega⟩
    obtain ⟨s, hs, hs'⟩ : ∃ s : ℤ, |s| = 1 ∧ m = s * 2 ^ (j + 1 + 1) := by
      rcases (abs_eq (by positivity)).1 h with h | h
      · exact ⟨1, by norm_num, by rw [h]; ring⟩
      · exact ⟨-1, by norm_num, by rw [h]; ring⟩
    have e1 : (m : ℚ) * 2 ^ e = ((s * 2 ^ (j + 1) : ℤ) : ℚ) * 2 ^ (e + 1) := by
      rw [hs', zpow_add₀ (by norm_num)]
      push_cast
      ring
    have hb : |s * 2 ^ (j + 1)| < 2 ^ (j + 1 + 1) := by
      rw [abs_mul, hs, one_mul, abs_of_pos (by positivity)]
      exact pow_lt_pow_right₀ (by norm_num) (by omega)
    rw [e1]
    exact ⟨⟨_, _, hb, by omega, rfl⟩, fun _ => ⟨_, _, hb, by omega, by rw [pow_succ, ← mul_assoc]; omega, rfl⟩⟩

theorem rndG_rounds (hk : 0 < k) (q : ℚ) : Rounds (k + 1) emin q (rndG k emin q) := by
  unfold rndG
  split_ifs with h
  · refine ⟨⟨0, emin, by positivity, le_rfl, by simp⟩, fun y _ => ⟨?_, fun _ _ => ⟨0, emin, by positivity, le_rfl, rfl, by simp⟩⟩⟩
    rw [h, sub_self, abs_zero]
    exact abs_nonneg _
  have hu : emin ≤ expG k emin q := le_max_right _ _
  have hrep := evenSig_of (emin := emin) hk (abs_rne_le (k := k) (emin := emin) h) hu
  refine ⟨hrep.1, ?_⟩
  have hp : (0 : ℚ) < 2 ^ expG k emin q := by positivity
  -- multiples of the last place
  have mult : ∀ z : ℤ, |(rne (q / 2 ^ expG k emin q) : ℚ) * 2 ^ expG k emin q - q| ≤ |(z : ℚ) * 2 ^ expG k emin q - q| ∧
      ((z : ℚ) * 2 ^ expG k emin q ≠ (rne (q / 2 ^ expG k emin q) : ℚ) * 2 ^ expG k emin q →
        |(rne (q / 2 ^ expG k emin q) : ℚ) * 2 ^ expG k emin q - q| = |(z : ℚ) * 2 ^ expG k emin q - q| →
        EvenSig (k + 1) emin ((rne (q / 2 ^ expG k emin q) : ℚ) * 2 ^ expG k emin q)) := by
    intro z
    rw [abs_scale, abs_scale]
    refine ⟨mul_le_mul_of_nonneg_right (rne_nearest _ _) hp.le, fun hne heq => hrep.2 ?_⟩
    refine rne_even _ z (fun hc => hne (by rw [hc])) (mul_right_cancel₀ hp.ne' heq).symm
  rintro y ⟨m, e, hm, he, rfl⟩
  by_cases hle : expG k emin q ≤ e
  · obtain ⟨j, hj⟩ := Int.eq_ofNat_of_zero_le (sub_nonneg.2 hle)
    have e1 : (m : ℚ) * 2 ^ e = ((m * 2 ^ j : ℤ) : ℚ) * 2 ^ expG k emin q := by
      have : e = (j : ℤ) + expG k emin q := by omega
      rw [this, zpow_add₀ (by norm_num)]
      push_cast
      rw [zpow_natCast]
      ring
    rw [e1]
    exact mult _
  · -- smaller than the binade of `q`
    have hle : e < expG k emin q := not_le.1 hle
    have hu : expG k emin q = ilog2 q - k := by
      unfold expG at hle ⊢
      omega
    have hlog := (ilog2_spec h).1
    have hy : |(m : ℚ) * 2 ^ e| < 2 ^ ilog2 q := by
      have hm' : |(m : ℚ)| < 2 ^ (k + 1) := by exact_mod_cast hm
      rw [abs_mul, abs_of_pos (show (0 : ℚ) < 2 ^ e by positivity)]
      calc _ < (2 : ℚ) ^ (k + 1) * 2 ^ e := by gcongr
        _ = 2 ^ (((k + 1 : ℕ) : ℤ) + e) := by rw [zpow_add₀ (by norm_num), zpow_natCast]
        _ ≤ _ := zpow_le_zpow_right₀ (by norm_num) (by push_cast; omega)
    -- `± 2^ilog2` is a multiple of the last place and lies between
    have hE : (2 : ℚ) ^ ilog2 q = ((2 ^ k : ℤ) : ℚ) * 2 ^ expG k emin q := by
      rw [hu, zpow_sub₀ (by norm_num), zpow_natCast]
      push_cast
      field_simp
    have strict : |(rne (q / 2 ^ expG k emin q) : ℚ) * 2 ^ expG k emin q - q| < |(m : ℚ) * 2 ^ e - q| := by
      obtain ⟨h5, h6⟩ := abs_lt.1 hy
      rcases lt_or_gt_of_ne h with hneg | hpos
      · rw [abs_of_neg hneg] at hlog
        refine (mult (-2 ^ k)).1.trans_lt ?_
        have k3 : (((-2 ^ k : ℤ)) : ℚ) * 2 ^ expG k emin q = -2 ^ ilog2 q := by rw [hE]; push_cast; ring
        rw [k3, abs_of_nonneg (by linarith), abs_of_nonneg (by linarith)]
        linarith
      · rw [abs_of_pos hpos] at hlog
        refine (mult (2 ^ k)).1.trans_lt ?_
        rw [← hE, abs_sub_comm, abs_of_nonneg (by linarith), abs_sub_comm, abs_of_nonneg (by linarith)]
        linarith
    exact ⟨strict.le, fun _ heq => absurd heq strict.ne⟩

theorem half_step {p : ℕ} {m e : ℤ} (hp : 0 < p) (hm : |m| < 2 ^ p) (h2 : m % 2 = 0) (he : emin ≤ e) (s : ℤ) (hs : |s| = 1) :
    Representable p emin (m * 2 ^ e + s * 2 ^ e) := by
  refine ⟨m + s, e, ?_, he, by push_cast; ring⟩
  obtain ⟨j, rfl⟩ : ∃ j, p = j + 1 := ⟨p - 1, by omega⟩
  rw [pow_succ] at hm ⊢
  rw [abs_lt] at hm ⊢
  rcases (abs_eq (by norm_num)).1 hs with rfl | rfl <;> omega

private theorem even_gap {e e' m m' : ℤ} (hle : e ≤ e') (h2 : m % 2 = 0) (h2' : m' % 2 = 0) (hlt : (m : ℚ) * 2 ^ e < m' * 2 ^ e')
    (hgap : (m' : ℚ) * 2 ^ e' - m * 2 ^ e ≤ 2 ^ e) : False := by
  obtain ⟨j, hj⟩ := Int.eq_ofNat_of_zero_le (sub_nonneg.2 hle)
  have hp : (0 : ℚ) < 2 ^ e := by positivity
  have e1 : (m' : ℚ) * 2 ^ e' = ((m' * 2 ^ j : ℤ) : ℚ) * 2 ^ e := by
    have : e' = (j : ℤ) + e := by omega
    rw [this, zpow_add₀ (by norm_num)]
    push_cast
    rw [zpow_natCast]
    ring
  rw [e1] at hlt hgap
  have h1 : m < m' * 2 ^ j := by exact_mod_cast lt_of_mul_lt_mul_right hlt hp.le
  have h3 : ((m' * 2 ^ j - m : ℤ) : ℚ) * 2 ^ e ≤ 1 * 2 ^ e := by push_cast at hgap ⊢; linarith
  have h4 : m' * 2 ^ j - m ≤ 1 := by exact_mod_cast le_of_mul_le_mul_right h3 hp
  have h5 : (m' * 2 ^ j) % 2 = 0 := by rw [Int.mul_emod, h2']; simp
  omega

/-- The conditions determine the result. -/
theorem rounds_unique {p : ℕ} (hp : 0 < p) {q r r' : ℚ} (h : Rounds p emin q r) (h' : Rounds p emin q r') : r = r' := by
  have key : ∀ r r' : ℚ, Rounds p emin q r → Rounds p emin q r' → ¬r < r' := by
    intro r r' h h' hlt
    have heq : |r - q| = |r' - q| := le_antisymm (h.2 r' h'.1).1 (h'.2 r h.1).1
    obtain ⟨m, e, hm, he, h2, rfl⟩ := (h.2 r' h'.1).2 hlt.ne' heq
    obtain ⟨m', e', hm', he', h2', rfl⟩ := (h'.2 _ h.1).2 hlt.ne heq.symm
    -- `q` is in the middle
    have hmid : q - (m : ℚ) * 2 ^ e = m' * 2 ^ e' - q := by
      rcases abs_eq_abs.1 heq with hh | hh <;> linarith
    have near : ∀ y, Representable p emin y → (m : ℚ) * 2 ^ e < y → y < m' * 2 ^ e' → False := by
      intro y hy h1 h3
      have := (h.2 y hy).1
      rw [abs_sub_comm, abs_of_nonneg (show (0 : ℚ) ≤ q - m * 2 ^ e by linarith)] at this
      have hlt : |y - q| < q - m * 2 ^ e := abs_lt.2 ⟨by linarith, by linarith⟩
      linarith
    have hp1 : (0 : ℚ) < 2 ^ e := by positivity
    have hp2 : (0 : ℚ) < 2 ^ e' := by positivity
    have g1 : (m' : ℚ) * 2 ^ e' - m * 2 ^ e ≤ 2 ^ e := by
      by_contra hc
      exact near _ (half_step hp hm h2 he 1 (by norm_num)) (by push_cast; linarith) (by push_cast; linarith)
    have g2 : (m' : ℚ) * 2 ^ e' - m * 2 ^ e ≤ 2 ^ e' := by
      by_contra hc
      exact near _ (half_step hp hm' h2' he' (-1) (by norm_num)) (by push_cast; linarith) (by push_cast; linarith)
    rcases le_total e e' with hle | hle
    · exact even_gap hle h2 h2' hlt g1
    · refine even_gap (m := -m') (m' := -m) hle (by omega) (by omega) ?_ ?_
      · push_cast; linarith
      · push_cast; linarith
  exact le_antisymm (not_lt.1 (key r' r h' h)) (not_lt.1 (key r r' h h'))

end Panda
