import Verif.Model.Contract
import Verif.Proofs.IirDrift

/-!
# Arithmetic of IIR stages with contraction
-/

set_option linter.unusedSectionVars false

namespace Panda

open Examples

variable {S : Format} {η Ω : ℚ} {ch : Term S → Fuse}

/-- An expression has the value `q`; if it is a product, the unrounded product is near. -/
def Term.Val (ch : Term S → Fuse) (η : ℚ) (v : Term S) (q : ℚ) : Prop :=
  v.eval ch = Fl.fin q ∧ ∃ q', (v.both ch).2 = Fl.fin q' ∧ |q' - q| ≤ η

theorem Term.Val.leaf (hη : 0 ≤ η) (i : ℕ) (q : ℚ) : Term.Val ch η (.leaf i (Fl.fin q)) q := ⟨rfl, q, rfl, by simpa using hη⟩

/-- Both components are the same number. -/
theorem Term.Val.same (hη : 0 ≤ η) {v : Term S} {q : ℚ} (h : v.both ch = (Fl.fin q, Fl.fin q)) : Term.Val ch η v q :=
  ⟨by rw [Term.eval, h], q, by rw [h], by simpa using hη⟩

/-- The operands of an addition. -/
theorem pick_add {f : Fuse} {p q : Fl S × Fl S} {a a' b b' : ℚ} (h1 : p.1 = Fl.fin a) (h2 : p.2 = Fl.fin a') (h3 : q.1 = Fl.fin b)
    (h4 : q.2 = Fl.fin b') : ∃ c d, Term.Fuse.pick f (· + ·) p q = Fl.mk S (c + d) ∧ (c = a ∨ c = a') ∧ (d = b ∨ d = b') ∧ (c = a ∨ d = b) := by
  cases f with
  | none => exact ⟨a, b, by simp only [Term.Fuse.pick, h1, h3]; rfl, .inl rfl, .inl rfl, .inl rfl⟩
  | left => exact ⟨a', b, by simp only [Term.Fuse.pick, h2, h3]; rfl, .inr rfl, .inl rfl, .inr rfl⟩
  | right => exact ⟨a, b', by simp only [Term.Fuse.pick, h1, h4]; rfl, .inl rfl, .inr rfl, .inl rfl⟩

theorem Term.Val.add {v w : Term S} {a b : ℚ} (hη : 0 ≤ η) (hv : Term.Val ch η v a) (hw : Term.Val ch η w b) :
    ∃ z, |z - (a + b)| ≤ η ∧ (v + w).both ch = (Fl.mk S z, Fl.mk S z) := by
  obtain ⟨a', h2, h3⟩ := hv.2
  obtain ⟨b', h4, h5⟩ := hw.2
  obtain ⟨c, d, e, hc, hd, hcd⟩ := pick_add (f := ch (.add v w)) hv.1 h2 hw.1 h4
  refine ⟨c + d, ?_, ?_⟩
  · rcases hcd with rfl | rfl
    · rcases hd with rfl | rfl
      · simpa using hη
      · simpa using h5
    · rcases hc with rfl | rfl
      · simpa using hη
      · simpa using h3
  · show (Term.Fuse.pick (ch (.add v w)) (· + ·) (v.both ch) (w.both ch), Term.Fuse.pick (ch (.add v w)) (· + ·) (v.both ch) (w.both ch)) = _
    rw [e]

theorem Term.Val.sub {v w : Term S} {a b : ℚ} (hη : 0 ≤ η) (hv : Term.Val ch η v a) (hw : Term.Val ch η w b) :
    ∃ z, |z - (a - b)| ≤ η ∧ (v - w).both ch = (Fl.mk S z, Fl.mk S z) := by
  obtain ⟨a', h2, h3⟩ := hv.2
  obtain ⟨b', h4, h5⟩ := hw.2
  have h1 : (v.both ch).1 = Fl.fin a := hv.1
  have h6 : (w.both ch).1 = Fl.fin b := hw.1
  have e : (v - w).both ch = (Term.Fuse.pick (ch (.sub v w)) (· - ·) (v.both ch) (w.both ch),
    Term.Fuse.pick (ch (.sub v w)) (· - ·) (v.both ch) (w.both ch)) := rfl
  rw [e]
  cases ch (.sub v w) with
  | none => exact ⟨a - b, by simpa using hη, by simp only [Term.Fuse.pick, h1, h6]; rfl⟩
  | left => exact ⟨a' - b, by simpa using h3, by simp only [Term.Fuse.pick, h2, h6]; rfl⟩
  | right =>
    refine ⟨a - b', ?_, by simp only [Term.Fuse.pick, h1, h4]; rfl⟩
    rw [show a - b' - (a - b) = -(b' - b) by ring, abs_neg]
    exact h5

/-- A section with coefficient `c`: the values of the operands of the addition. -/
theorem Term.Val.sec (hS : S.Acc u32r η Ω) {v v' w cT : Term S} {x x' y' c : ℚ} (hc : cT.eval ch = Fl.fin c)
    (hv : Term.Val ch η v x) (hv' : Term.Val ch η v' x') (hw : Term.Val ch η w y') :
    ∃ z, |z - (x - y')| ≤ η ∧ ((1 + u32r) * |z| + η ≤ Ω → (1 + u32r) * |S.rnd z * c| + η ≤ Ω →
      ∃ p d, |p - S.rnd z * c| ≤ u32r * |S.rnd z * c| + η ∧ |d - x'| ≤ η ∧
        ((1 + u32r) * |p + d| + η ≤ Ω → Term.Val ch η ((v - w) * cT + v') (S.rnd (p + d)))) := by
  obtain ⟨z, z1, z2⟩ := hv.sub hS.hη hw
  refine ⟨z, z1, fun f1 f2 => ?_⟩
  rw [mk_fin hS f1] at z2
  have hu : (0 : ℚ) ≤ u32r := by positivity
  have hη := hS.hη
  have em : ((v - w) * cT).both ch = (((v - w).both ch).1 * cT.eval ch, Term.exactMul ((v - w).both ch).1 (cT.eval ch)) := rfl
  rw [z2, hc] at em
  obtain ⟨d', h2, h3⟩ := hv'.2
  obtain ⟨p, d, e, hp, hd, -⟩ := pick_add (f := ch (.add ((v - w) * cT) v')) (p := ((v - w) * cT).both ch) (q := v'.both ch)
    (by rw [em]; exact fin_mul hS f2) (by rw [em]; rfl) hv'.1 h2
  refine ⟨p, d, ?_, ?_, fun f3 => Term.Val.same hη ?_⟩
  · rcases hp with rfl | rfl
    · exact hS.err _
    · rw [sub_self, abs_zero]
      positivity
  · rcases hd with rfl | rfl
    · simpa using hη
    · exact h3
  · show (Term.Fuse.pick (ch (.add ((v - w) * cT) v')) (· + ·) (((v - w) * cT).both ch) (v'.both ch),
      Term.Fuse.pick (ch (.add ((v - w) * cT) v')) (· + ·) (((v - w) * cT).both ch) (v'.both ch)) = _
    rw [e, mk_fin hS f3]

/-- The section with coefficient 1, in numbers. -/
theorem unit_num {B x x' d z s p w t : ℚ} (hη : 2 * η ≤ τ32 * B) (hΩ : 16 * B ≤ Ω) (hx : |x| ≤ B) (hx' : |x'| ≤ B) (hd : |d| ≤ B)
    (hz : |z - (x - (x' + d))| ≤ η) (e1 : |s - z| ≤ u32r * |z| + η) (e2 : |p - s| ≤ u32r * |s| + η) (hw : |w - x'| ≤ η)
    (e3 : |t - (p + w)| ≤ u32r * |p + w| + η) :
    ((1 + u32r) * |z| + η ≤ Ω ∧ (1 + u32r) * |s| + η ≤ Ω ∧ (1 + u32r) * |p + w| + η ≤ Ω) ∧ |t - x| ≤ |d| + driftU * B := by
  have hB : 0 ≤ B := (abs_nonneg _).trans hx
  have hu : u32r = 1 / 16777216 := by norm_num [u32r]
  have hτ : τ32 = 1 / 2 ^ 50 := by norm_num [τ32]
  have h1 : |x - (x' + d)| ≤ 3 * B := by
    rw [abs_le] at *
    constructor <;> linarith [hx.1, hx.2, hx'.1, hx'.2, hd.1, hd.2]
  have a0 := abs_sub_abs_le_abs_sub z (x - (x' + d))
  have a1 := abs_sub_abs_le_abs_sub s z
  have h3 : |p + w| ≤ |p - s| + |s - z| + |z - (x - (x' + d))| + |w - x'| + 2 * B := by
    have e : p + w = (p - s) + (s - z) + (z - (x - (x' + d))) + (w - x') + (x - d) := by ring
    have h4 : |x - d| ≤ 2 * B := (abs_sub _ _).trans (by linarith)
    have t1 := abs_add_le ((p - s) + (s - z) + (z - (x - (x' + d))) + (w - x')) (x - d)
    have t2 := abs_add_le ((p - s) + (s - z) + (z - (x - (x' + d)))) (w - x')
    have t3 := abs_add_le ((p - s) + (s - z)) (z - (x - (x' + d)))
    have t4 := abs_add_le (p - s) (s - z)
    rw [← e] at t1
    linarith
  have e : t - x = (t - (p + w)) + (p - s) + (s - z) + (z - (x - (x' + d))) + (w - x') - d := by ring
  have t0 := abs_sub ((t - (p + w)) + (p - s) + (s - z) + (z - (x - (x' + d))) + (w - x')) d
  have t1 := abs_add_le ((t - (p + w)) + (p - s) + (s - z) + (z - (x - (x' + d)))) (w - x')
  have t2 := abs_add_le ((t - (p + w)) + (p - s) + (s - z)) (z - (x - (x' + d)))
  have t3 := abs_add_le ((t - (p + w)) + (p - s)) (s - z)
  have t4 := abs_add_le (t - (p + w)) (p - s)
  rw [← e] at t0
  rw [driftU]
  rw [hu, hτ] at *
  norm_num at *
  exact ⟨⟨by linarith, by linarith, by linarith⟩, by linarith⟩

/-- Half the sum, in numbers. -/
theorem half_num {X0 B p q z s : ℚ} (hη0 : 0 ≤ η) (hη : 2 * η ≤ τ32 * X0) (hX0 : 0 ≤ X0) (hΩ : 2 ^ 15 * X0 ≤ Ω) (hB : B ≤ 2 ^ 11)
    (hpq : |p + q| ≤ B * X0) (hz : |z - (p + q)| ≤ η) (e1 : |s - z| ≤ u32r * |z| + η) :
    ((1 + u32r) * |z| + η ≤ Ω ∧ (1 + u32r) * |s * (1 / 2)| + η ≤ Ω) ∧
    ∀ t, |t - s * (1 / 2)| ≤ u32r * |s * (1 / 2)| + η → |t - (p + q) / 2| ≤ (u32r * (1 + u32r) * B + 2 * τ32) * X0 := by
  have hu : u32r = 1 / 16777216 := by norm_num [u32r]
  have hB' : B * X0 ≤ 2 ^ 11 * X0 := mul_le_mul_of_nonneg_right hB hX0
  have hτ : τ32 * X0 ≤ X0 := by
    have : τ32 ≤ 1 := by norm_num [τ32]
    nlinarith
  have a0 := abs_sub_abs_le_abs_sub z (p + q)
  have a1 := abs_sub_abs_le_abs_sub s z
  have a2 := abs_nonneg (p + q)
  have ah : |s * (1 / 2)| = |s| * (1 / 2) := by rw [abs_mul, abs_of_pos (show (0 : ℚ) < 1 / 2 by norm_num)]
  rw [ah]
  refine ⟨⟨?_, ?_⟩, fun t e2 => ?_⟩
  · rw [hu]
    norm_num at hΩ hB' ⊢
    linarith
  · rw [hu] at *
    norm_num at hΩ hB' e1 ⊢
    linarith
  · have e : t - (p + q) / 2 = (t - s * (1 / 2)) + (s - z) * (1 / 2) + (z - (p + q)) * (1 / 2) := by ring
    rw [e]
    have t1 := abs_add_le ((t - s * (1 / 2)) + (s - z) * (1 / 2)) ((z - (p + q)) * (1 / 2))
    have t2 := abs_add_le (t - s * (1 / 2)) ((s - z) * (1 / 2))
    have b1 : |(s - z) * (1 / 2)| = |s - z| * (1 / 2) := by rw [abs_mul, abs_of_pos (show (0 : ℚ) < 1 / 2 by norm_num)]
    have b2 : |(z - (p + q)) * (1 / 2)| = |z - (p + q)| * (1 / 2) := by rw [abs_mul, abs_of_pos (show (0 : ℚ) < 1 / 2 by norm_num)]
    have h5 : (u32r * (1 + u32r) * B + 2 * τ32) * X0 = u32r * (1 + u32r) * (B * X0) + 2 * (τ32 * X0) := by ring
    rw [h5]
    rw [b2] at t1
    rw [b1] at t2
    generalize τ32 * X0 = T at *
    rw [hu] at e1 e2 ⊢
    linarith

/-- Expressions with contraction. The additional absolute error comes from the unrounded product by 1/2 at the end of a downsampling
stage, which may be contracted with a subtraction or addition of the next stage. -/
theorem Term.iirArith (hS : S.Acc u32r η Ω) (hhalf : ∀ q, |S.rnd (S.rnd q * (1 / 2)) - S.rnd q * (1 / 2)| ≤ η) (ch : Term S → Fuse) :
    IirArith S (Term.Val ch η) (2 * η) Ω where
  hη := by have := hS.hη; linarith
  zero := Term.Val.leaf hS.hη 0 0
  uniq h h' := Option.some.inj (h.1.symm.trans h'.1)
  sec := by
    rintro d v v' w x x' y' X Y ⟨c1, c2⟩ h0 h1 hv hv' hw hx hx' hy' hΩ
    have hη := hS.hη
    rw [two_mul] at hΩ ⊢
    have hc : (Sample.ofDouble d.toRat : Term S).eval ch = Fl.fin (S.rnd d.toRat) := if_pos c2
    obtain ⟨z, z1, z2⟩ := Term.Val.sec hS hc hv hv' hw
    obtain ⟨f1, f2, -⟩ := section_fits (Ω := Ω) h0 h1 c1 hη hη hx hx' hy' hΩ z1 (hS.err z) (hS.err _)
      (show |x' - x'| ≤ η by simpa using hη) (hS.err _)
    obtain ⟨p, e, p1, p2, p3⟩ := z2 f1 f2
    obtain ⟨-, -, f3⟩ := section_fits (Ω := Ω) h0 h1 c1 hη hη hx hx' hy' hΩ z1 (hS.err z) p1 p2 (hS.err _)
    exact ⟨_, p3 f3, section_err h0 h1 c1 hη hη hx hx' hy' z1 (hS.err z) p1 p2 (hS.err _)⟩
  half := by
    intro v w p q X0 B hv hw hη hX0 hΩ hB hpq
    obtain ⟨z, z1, z2⟩ := hv.add hS.hη hw
    obtain ⟨⟨f1, f2⟩, h3⟩ := half_num hS.hη hη hX0 hΩ hB hpq z1 (hS.err z)
    rw [mk_fin hS f1] at z2
    have eh : (Sample.half : Term S).eval ch = Fl.fin (1 / 2) := rfl
    have e1 : ((v + w) * Sample.half).both ch =
      (((v + w).both ch).1 * (Sample.half : Term S).eval ch, Term.exactMul ((v + w).both ch).1 ((Sample.half : Term S).eval ch)) := rfl
    have e2 : (Sample.half * (v + w)).both ch =
      ((Sample.half : Term S).eval ch * ((v + w).both ch).1, Term.exactMul ((Sample.half : Term S).eval ch) ((v + w).both ch).1) := rfl
    rw [z2, eh] at e1 e2
    have m1 := fin_mul hS f2
    have m2 := fin_mul hS (a := 1 / 2) (b := S.rnd z) (by rwa [mul_comm (1 / 2 : ℚ)])
    rw [mul_comm (1 / 2 : ℚ)] at m2
    refine ⟨⟨S.rnd (S.rnd z * (1 / 2)), ⟨by rw [Term.eval, e1]; exact m1, S.rnd z * (1 / 2), by rw [e1]; rfl, ?_⟩, h3 _ (hS.err _)⟩,
      S.rnd (S.rnd z * (1 / 2)), ⟨by rw [Term.eval, e2]; exact m2, S.rnd z * (1 / 2), by rw [e2, mul_comm]; rfl, ?_⟩, h3 _ (hS.err _)⟩
    · rw [abs_sub_comm]
      exact hhalf z
    · rw [abs_sub_comm]
      exact hhalf z
  unit := by
    intro v v' w x x' d B hv hv' hw hη hΩ hx hx' hd
    obtain ⟨z, z1, z2⟩ := Term.Val.sec hS (cT := 1) (c := 1) rfl hv hv' hw
    rw [mul_one] at z2
    have e2 : |S.rnd (S.rnd z) - S.rnd z| ≤ u32r * |S.rnd z| + η := hS.err _
    obtain ⟨⟨f1, f2, -⟩, -⟩ := unit_num (w := x') hη hΩ hx hx' hd z1 (hS.err z) e2 (by simpa using hS.hη) (hS.err _)
    obtain ⟨p, e, p1, p2, p3⟩ := z2 f1 f2
    obtain ⟨⟨-, -, f3⟩, f4⟩ := unit_num hη hΩ hx hx' hd z1 (hS.err z) p1 p2 (hS.err _)
    exact ⟨_, p3 f3, f4⟩

/-- Half a binary32 number is a binary32 number, except for rounding of subnormal numbers. -/
theorem rnd32_half (q : ℚ) : |rnd32 (rnd32 q * (1 / 2)) - rnd32 q * (1 / 2)| ≤ 2⁻¹ ^ 150 := by
  obtain ⟨m, e, hm, he, h⟩ := isFloat_rnd32 q
  rw [h]
  rcases lt_or_eq_of_le he with he | he
  · rw [rnd32_of_isFloat, sub_self, abs_zero]
    · positivity
    · refine ⟨m, e - 1, hm, by omega, ?_⟩
      rw [zpow_sub_one₀ (by norm_num)]
      ring
  · rw [← he]
    refine (rnd32_nearest _ ((m / 2 : ℤ) * 2 ^ (-149 : ℤ)) ⟨m / 2, -149, ?_, le_rfl, rfl⟩).trans ?_
    · rw [abs_le] at *
      constructor <;> omega
    · have h2 : ((m / 2 : ℤ) : ℚ) * 2 - m = -((m % 2 : ℤ) : ℚ) := by
        have : m / 2 * 2 - m = -(m % 2) := by omega
        exact_mod_cast this
      have h3 : (m % 2 = 0) ∨ (m % 2 = 1) := by omega
      have e : ((m / 2 : ℤ) : ℚ) * 2 ^ (-149 : ℤ) - m * 2 ^ (-149 : ℤ) * (1 / 2) = (((m / 2 : ℤ) : ℚ) * 2 - m) * 2⁻¹ ^ 150 := by
        norm_num
        ring
      rw [e, h2]
      rcases h3 with h3 | h3 <;> rw [h3] <;> norm_num

end Panda
