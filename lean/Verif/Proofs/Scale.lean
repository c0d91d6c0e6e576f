import Mathlib.Tactic.FieldSimp
import Verif.Proofs.FastFloat
import Verif.Proofs.Construct
import Verif.Proofs.Homog
import Verif.Model.Flush

/-!
# Rounding of negated numbers and of multiples by powers of two
-/

namespace Panda

/-- Rounding is symmetric. -/
structure Format.Odd (S : Format) : Prop where
  rnd : ∀ q, S.rnd (-q) = -S.rnd q
  fits : ∀ q, S.fits (-q) = S.fits q

theorem binary32_odd : binary32.Odd := ⟨rnd32_neg', fun q => by simp [binary32]⟩

theorem binary32ftz_odd : binary32ftz.Odd := by
  refine ⟨fun q => ?_, fun q => by simp [binary32ftz, binary32]⟩
  show rndFtz (-q) = -rndFtz q
  unfold rndFtz
  rw [abs_neg, rnd32_neg']
  split <;> simp

theorem binary32fz_odd : binary32fz.Odd := by
  refine ⟨fun q => ?_, fun q => by simp [binary32fz, binary32]⟩
  show rndFz (-q) = -rndFz q
  unfold rndFz
  rw [abs_neg, rnd32_neg']
  split <;> simp

/-- The number with the other sign; "not a number" stays what it is. -/
def Fl.neg {S : Format} (a : Fl S) : Fl S := Option.map (fun q : ℚ => -q) a

theorem Fl.mk_neg {S : Format} (hS : S.Odd) (q : ℚ) : Fl.mk S (-q) = (Fl.mk S q).neg := by
  by_cases h : S.fits (S.rnd q) = true
  · have h1 : Fl.mk S q = Fl.fin (S.rnd q) := if_pos h
    have h2 : Fl.mk S (-q) = Fl.fin (S.rnd (-q)) := if_pos (by rw [hS.rnd, hS.fits, h])
    rw [h1, h2, hS.rnd]
    rfl
  · have h1 : Fl.mk S q = none := if_neg h
    have h2 : Fl.mk S (-q) = none := if_neg (by rwa [hS.rnd, hS.fits])
    rw [h1, h2]
    rfl

theorem Fl.op_neg {S : Format} (hS : S.Odd) {f : ℚ → ℚ → ℚ} (g h : ℚ → ℚ) (a b : Fl S) (hf : ∀ x y, f (g x) (h y) = -f x y) :
    Fl.op f (Option.map g a) (Option.map h b) = (Fl.op f a b).neg := by
  cases a <;> cases b <;> first | rfl | skip
  show Fl.mk S _ = (Fl.mk S _).neg
  rw [hf, Fl.mk_neg hS]

theorem Fl.homog_neg {S : Format} (hS : S.Odd) : Homog (Fl.neg (S := S)) where
  zero := by show some (-(0 : ℚ)) = some 0; rw [neg_zero]
  add a b := (Fl.op_neg hS (fun q => -q) (fun q => -q) a b fun x y => by ring).symm
  sub a b := (Fl.op_neg hS (fun q => -q) (fun q => -q) a b fun x y => by ring).symm
  mul a b := by
    have := (Fl.op_neg hS (f := (· * ·)) (fun q => -q) id a b fun x y => by simp).symm
    rwa [Option.map_id] at this
  half a := by
    have := (Fl.op_neg hS (f := (· * ·)) id (fun q => -q) (some (1 / 2)) a fun x y => by simp).symm
    rwa [Option.map_id] at this

/-! ## Powers of two -/

/-- `q` is a multiple of `2^-g`. -/
def OnGrid (g : ℕ) (q : ℚ) : Prop := ∃ z : ℤ, q = z / 2 ^ g

theorem OnGrid.zero (g : ℕ) : OnGrid g 0 := ⟨0, by simp⟩

theorem OnGrid.mono {g h : ℕ} {q : ℚ} (hq : OnGrid g q) (hgh : g ≤ h) : OnGrid h q := by
  obtain ⟨z, rfl⟩ := hq
  obtain ⟨d, rfl⟩ := Nat.exists_eq_add_of_le hgh
  exact ⟨z * 2 ^ d, by push_cast; rw [pow_add]; field_simp⟩

theorem OnGrid.add {g : ℕ} {p q : ℚ} (hp : OnGrid g p) (hq : OnGrid g q) : OnGrid g (p + q) := by
  obtain ⟨y, rfl⟩ := hp
  obtain ⟨z, rfl⟩ := hq
  exact ⟨y + z, by push_cast; ring⟩

theorem OnGrid.sub {g : ℕ} {p q : ℚ} (hp : OnGrid g p) (hq : OnGrid g q) : OnGrid g (p - q) := by
  obtain ⟨y, rfl⟩ := hp
  obtain ⟨z, rfl⟩ := hq
  exact ⟨y - z, by push_cast; ring⟩

theorem OnGrid.mul {g h : ℕ} {p q : ℚ} (hp : OnGrid g p) (hq : OnGrid h q) : OnGrid (g + h) (p * q) := by
  obtain ⟨y, rfl⟩ := hp
  obtain ⟨z, rfl⟩ := hq
  exact ⟨y * z, by push_cast; rw [pow_add]; field_simp⟩

theorem rne_int (z : ℤ) : rne (z : ℚ) = z := by
  unfold rne
  simp

theorem rnd32_grid {g : ℕ} {q : ℚ} (h : OnGrid g q) : OnGrid g (rnd32 q) := by
  obtain ⟨z, rfl⟩ := h
  unfold rnd32
  split
  · exact OnGrid.zero g
  · generalize he : ulpExp ((z : ℚ) / 2 ^ g) = e
    have two : (2 : ℚ) ≠ 0 := by norm_num
    rcases le_total (-(g : ℤ)) e with hle | hle
    · obtain ⟨d, rfl⟩ : ∃ d : ℕ, e = d - g := ⟨(e + g).toNat, by omega⟩
      refine ⟨rne ((z : ℚ) / 2 ^ g / 2 ^ ((d : ℤ) - g)) * 2 ^ d, ?_⟩
      push_cast
      rw [zpow_sub₀ two, zpow_natCast, zpow_natCast, mul_div_assoc]
    · obtain ⟨d, rfl⟩ : ∃ d : ℕ, e = -(g : ℤ) - d := ⟨(-(g : ℤ) - e).toNat, by omega⟩
      have : (z : ℚ) / 2 ^ g / 2 ^ (-(g : ℤ) - d) = ((z * 2 ^ d : ℤ) : ℚ) := by
        push_cast
        rw [zpow_sub₀ two, zpow_neg, zpow_natCast, zpow_natCast]
        field_simp
      rw [this, rne_int]
      refine ⟨z, ?_⟩
      push_cast
      rw [zpow_sub₀ two, zpow_neg, zpow_natCast, zpow_natCast]
      field_simp

/-- Rounding to 24 bits without a smallest exponent. -/
def rnd24 (q : ℚ) : ℚ := if q = 0 then 0 else (rne (q / 2 ^ (ilog2 q - 23)) : ℤ) * 2 ^ (ilog2 q - 23)

theorem rnd32_eq_rnd24 {q : ℚ} (h : OnGrid 149 q) : rnd32 q = rnd24 q := by
  unfold rnd32 rnd24
  split
  · rfl
  · unfold ulpExp
    rcases le_total (-149) (ilog2 q - 23) with hle | hle
    · rw [max_eq_left hle]
    · rw [max_eq_right hle]
      obtain ⟨d, hd⟩ : ∃ d : ℕ, ilog2 q - 23 = -149 - d := ⟨(-149 - (ilog2 q - 23)).toNat, by omega⟩
      obtain ⟨z, hz⟩ := h
      have two : (2 : ℚ) ≠ 0 := by norm_num
      have e1 : q / 2 ^ (-149 : ℤ) = (z : ℚ) := by
        rw [hz, zpow_neg, div_inv_eq_mul]
        exact div_mul_cancel₀ _ (by positivity)
      have e2 : q / 2 ^ (ilog2 q - 23) = ((z * 2 ^ d : ℤ) : ℚ) := by
        rw [hd, zpow_sub₀ two, zpow_natCast]
        push_cast
        rw [← e1]
        field_simp
      rw [e1, e2, rne_int, rne_int, ← e1, ← e2, div_mul_cancel₀ _ (by positivity), div_mul_cancel₀ _ (by positivity)]

theorem ilog2_eq_of {q : ℚ} (hq : q ≠ 0) {e : ℤ} (h1 : (2 : ℚ) ^ e ≤ |q|) (h2 : |q| < 2 ^ (e + 1)) : ilog2 q = e := by
  obtain ⟨h3, h4⟩ := ilog2_spec hq
  have a := (zpow_lt_zpow_iff_right₀ (by norm_num : (1 : ℚ) < 2)).1 (h1.trans_lt h4)
  have b := (zpow_lt_zpow_iff_right₀ (by norm_num : (1 : ℚ) < 2)).1 (h3.trans_lt h2)
  omega

theorem ilog2_scale {q : ℚ} (hq : q ≠ 0) (k : ℤ) : ilog2 (q * 2 ^ k) = ilog2 q + k := by
  have two : (2 : ℚ) ≠ 0 := by norm_num
  have hp : (0 : ℚ) < 2 ^ k := by positivity
  obtain ⟨h3, h4⟩ := ilog2_spec hq
  refine ilog2_eq_of (mul_ne_zero hq hp.ne') ?_ ?_
  · rw [abs_mul, abs_of_pos hp, zpow_add₀ two]
    exact mul_le_mul_of_nonneg_right h3 hp.le
  · rw [abs_mul, abs_of_pos hp, show ilog2 q + k + 1 = (ilog2 q + 1) + k by ring, zpow_add₀ two]
    exact mul_lt_mul_of_pos_right h4 hp

theorem rnd24_scale (q : ℚ) (k : ℤ) : rnd24 (q * 2 ^ k) = rnd24 q * 2 ^ k := by
  have two : (2 : ℚ) ≠ 0 := by norm_num
  have hp : (2 : ℚ) ^ k ≠ 0 := by positivity
  unfold rnd24
  by_cases hq : q = 0
  · simp [hq]
  · rw [if_neg (mul_ne_zero hq hp), if_neg hq, ilog2_scale hq, show ilog2 q + k - 23 = (ilog2 q - 23) + k by ring, zpow_add₀ two,
      mul_div_mul_right _ _ hp, mul_assoc]

/-- Rounding commutes with powers of two as long as nothing gets lost at the lower end. -/
theorem rnd32_scale {q : ℚ} {k : ℤ} (h : OnGrid 149 q) (h' : OnGrid 149 (q * 2 ^ k)) : rnd32 (q * 2 ^ k) = rnd32 q * 2 ^ k := by
  rw [rnd32_eq_rnd24 h, rnd32_eq_rnd24 h', rnd24_scale]

/-- Pairs of equal constants that are multiples of `2^-h`. -/
def scaleT (h : ℕ) (p : Two (Fl binary32)) : Prop := ∃ t, p.a = Fl.fin t ∧ p.b = Fl.fin t ∧ OnGrid h t

/-- Pairs of numbers that differ by the factor `2^k` and are multiples of `2^-g`, as far as they are numbers. -/
def scaleD (k : ℤ) (g : ℕ) (p : Two (Fl binary32)) : Prop :=
  ∀ x y, p.a = Fl.fin x → p.b = Fl.fin y → y = x * 2 ^ k ∧ OnGrid g x ∧ OnGrid g y

theorem Fl.mk_fin_inv {S : Format} {q v : ℚ} (h : Fl.mk S q = Fl.fin v) : v = S.rnd q := by
  by_cases hf : S.fits (S.rnd q) = true
  · have h1 : Fl.mk S q = Fl.fin (S.rnd q) := if_pos hf
    rw [h1] at h
    exact (Option.some.inj h).symm
  · have h1 : Fl.mk S q = none := if_neg hf
    rw [h1] at h
    exact absurd h (by simp [Fl.fin])

theorem Fl.op_fin_inv {S : Format} {f : ℚ → ℚ → ℚ} {a b : Fl S} {v : ℚ} (h : Fl.op f a b = Fl.fin v) :
    ∃ x y, a = Fl.fin x ∧ b = Fl.fin y ∧ v = S.rnd (f x y) := by
  match a, b, h with
  | some x, some y, h => exact ⟨x, y, rfl, rfl, Fl.mk_fin_inv h⟩
  | some _, none, h => exact absurd (show (none : Option ℚ) = some v from h) (by simp)
  | none, some _, h => exact absurd (show (none : Option ℚ) = some v from h) (by simp)
  | none, none, h => exact absurd (show (none : Option ℚ) = some v from h) (by simp)

/-- An operation that commutes with the factor. -/
theorem scaleD_op {k : ℤ} {f : ℚ → ℚ → ℚ} {g : ℕ} (hg : g ≤ 149) {a a' b b' : Fl binary32}
    (hf : ∀ x y x' y', a = Fl.fin x → a' = Fl.fin x' → b = Fl.fin y → b' = Fl.fin y' →
      f x' y' = f x y * 2 ^ k ∧ OnGrid g (f x y) ∧ OnGrid g (f x' y')) :
    scaleD k g ⟨Fl.op f a b, Fl.op f a' b'⟩ := by
  intro v v' h h'
  obtain ⟨x, y, hx, hy, rfl⟩ := Fl.op_fin_inv h
  obtain ⟨x', y', hx', hy', rfl⟩ := Fl.op_fin_inv h'
  obtain ⟨e, g1, g2⟩ := hf x y x' y' hx hx' hy hy'
  refine ⟨?_, rnd32_grid g1, rnd32_grid g2⟩
  show rnd32 (f x' y') = rnd32 (f x y) * 2 ^ k
  rw [e]
  rw [e] at g2
  exact rnd32_scale (g1.mono hg) (g2.mono hg)

theorem scaleAct {k : ℤ} {g h : ℕ} (hh : 1 ≤ h) (hgh : g + h ≤ 149) : Act (scaleT h) (scaleD k g) (scaleD k (g + h)) where
  zeroT := ⟨0, rfl, rfl, OnGrid.zero h⟩
  oneT := ⟨1, rfl, rfl, 2 ^ h, by simp⟩
  zeroD := by
    intro x y hx hy
    cases hx
    cases hy
    exact ⟨by simp, OnGrid.zero g, OnGrid.zero g⟩
  incl := by
    intro p hp x y hx hy
    obtain ⟨h1, h2, h3⟩ := hp x y hx hy
    exact ⟨h1, h2.mono (by omega), h3.mono (by omega)⟩
  add := by
    intro p q hp hq
    refine scaleD_op hgh fun x y x' y' h1 h2 h3 h4 => ?_
    obtain ⟨e1, g1, g2⟩ := hp x x' h1 h2
    obtain ⟨e2, g3, g4⟩ := hq y y' h3 h4
    exact ⟨by simp only [e1, e2]; ring, g1.add g3, g2.add g4⟩
  sub := by
    intro p q hp hq
    refine scaleD_op hgh fun x y x' y' h1 h2 h3 h4 => ?_
    obtain ⟨e1, g1, g2⟩ := hp x x' h1 h2
    obtain ⟨e2, g3, g4⟩ := hq y y' h3 h4
    exact ⟨by simp only [e1, e2]; ring, g1.sub g3, g2.sub g4⟩
  mul := by
    rintro p q hp ⟨t, ht, ht', hg⟩
    refine scaleD_op hgh fun x y x' y' h1 h2 h3 h4 => ?_
    obtain ⟨e1, g1, g2⟩ := hp x x' h1 h2
    cases ht.symm.trans h3
    cases ht'.symm.trans h4
    exact ⟨by simp only [e1]; ring, g1.mul hg, g2.mul hg⟩
  halfMul := by
    intro p hp
    refine scaleD_op hgh fun x y x' y' h1 h2 h3 h4 => ?_
    obtain ⟨e1, g1, g2⟩ := hp y y' h3 h4
    cases h1
    cases h2
    have hg : OnGrid h (1 / 2 : ℚ) := OnGrid.mono (g := 1) ⟨1, by norm_num⟩ hh
    exact ⟨by simp only [e1]; ring, by rw [mul_comm]; exact g1.mul hg, by rw [mul_comm]; exact g2.mul hg⟩
  mulHalf := by
    intro p hp
    refine scaleD_op hgh fun x y x' y' h1 h2 h3 h4 => ?_
    obtain ⟨e1, g1, g2⟩ := hp x x' h1 h2
    cases h3
    cases h4
    have hg : OnGrid h (1 / 2 : ℚ) := OnGrid.mono (g := 1) ⟨1, by norm_num⟩ hh
    exact ⟨by simp only [e1]; ring, g1.mul hg, g2.mul hg⟩

/-- The taps of the stage from rate `k/2` to rate `k` are multiples of this negative power of two. -/
def tapGrid (k : ℕ) : ℕ := if k = 2 then 46 else 39

theorem taps_grid : ∀ k ∈ [2, 4, 8], ∀ p ∈ [1, 8, 12, 16, 20, 24], ∀ t ∈ firTable k p, ∀ d ∈ t, ∀ q ∈ [(1 : ℚ), 2],
    (rnd32 (d.toRat * q) * 2 ^ tapGrid k).den = 1 ∧ binary32.fits (rnd32 (d.toRat * q)) = true := by decide +kernel

theorem onGrid_of_den {g : ℕ} {q : ℚ} (h : (q * 2 ^ g).den = 1) : OnGrid g q := by
  refine ⟨(q * 2 ^ g).num, ?_⟩
  rw [(Rat.den_eq_one_iff _).1 h, mul_div_cancel_right₀ _ (by positivity)]

theorem taps_scaleT {k p : ℕ} (hk : k ∈ [2, 4, 8]) (hp : p ∈ [1, 8, 12, 16, 20, 24]) {t : List Dec} (ht : firTable k p = some t) {q : ℚ}
    (hq : q ∈ [(1 : ℚ), 2]) : ∀ x ∈ t.map (fun d => (Sample.ofDouble (d.toRat * q) : Two (Fl binary32))), scaleT (tapGrid k) x := by
  intro x hx
  obtain ⟨d, hd, rfl⟩ := List.mem_map.1 hx
  obtain ⟨h1, h2⟩ := taps_grid k hk p hp t (by rw [ht]; rfl) d hd q hq
  have e : Fl.mk binary32 (d.toRat * q) = Fl.fin (rnd32 (d.toRat * q)) := if_pos h2
  exact ⟨_, e, e, onGrid_of_den h1⟩

theorem cascade_scale {cfg : Config} (hf : cfg.filter = .fir) (hp : cfg.precision ∈ [1, 8, 12, 16, 20, 24]) {k : ℤ} (ks : List ℕ)
    (hks : ∀ k ∈ ks, k ∈ [2, 4, 8]) (g : ℕ) (hg : g + (ks.map tapGrid).sum ≤ 149) {xs ys : List (Two (Fl binary32))}
    (hx : ∀ x ∈ xs, scaleD k g x) (h : CascadeRel (ks.map cfg.stage).flatten xs ys) :
    ∀ y ∈ ys, scaleD k (g + (ks.map tapGrid).sum) y := by
  induction ks generalizing g xs with
  | nil => cases h; exact hx
  | cons n ks ih =>
    have hn := hks n (by simp)
    obtain ⟨t, ht⟩ := Option.isSome_iff_exists.1 (tables_exist hn hp).1
    have hpos : 1 ≤ tapGrid n := by unfold tapGrid; split <;> omega
    simp only [List.map_cons, List.sum_cons] at hg ⊢
    rw [← add_assoc]
    have H : Act (scaleT (tapGrid n)) (scaleD k g) (scaleD k (g + tapGrid n)) := scaleAct hpos (by omega)
    rw [List.map_cons, List.flatten_cons] at h
    cases hm : cfg.mode with
    | up =>
      have hs : cfg.stage (F := Two (Fl binary32)) n = [.firUp cfg.vec (t.map fun d => Sample.ofDouble (d.toRat * 2))] := by
        unfold Config.stage
        simp only [hf, hm, ht, Option.toList_some, List.map_cons, List.map_nil]
      rw [hs] at h
      obtain ⟨zs, h1, h2⟩ := h
      exact ih (fun k hk => hks k (by simp [hk])) (g + tapGrid n) (by omega)
        (h1.actFirUp H (taps_scaleT hn hp ht (by simp)) hx) h2
    | down =>
      have hs : cfg.stage (F := Two (Fl binary32)) n = [.firDown cfg.vec (t.map fun d => Sample.ofDouble (d.toRat * 1))] := by
        unfold Config.stage
        simp only [hf, hm, ht, Option.toList_some, List.map_cons, List.map_nil]
      rw [hs] at h
      obtain ⟨zs, h1, h2⟩ := h
      exact ih (fun k hk => hks k (by simp [hk])) (g + tapGrid n) (by omega)
        (h1.actFirDown H (taps_scaleT hn hp ht (by simp)) hx) h2

theorem stages_scale {cfg : Config} (hv : cfg.Valid) (hf : cfg.filter = .fir) {k : ℤ} {xs ys : List (Two (Fl binary32))}
    (hx : ∀ x ∈ xs, scaleD k 25 x) (h : CascadeRel cfg.stages xs ys) : ∀ y ∈ ys, scaleD k 149 y := by
  have aux : ∀ ks : List ℕ, (∀ k ∈ ks, k ∈ [2, 4, 8]) → 25 + (ks.map tapGrid).sum ≤ 149 →
      CascadeRel (ks.map (cfg.stage (F := Two (Fl binary32)))).flatten xs ys → ∀ y ∈ ys, scaleD k 149 y := by
    intro ks h1 h2 h3 y hy a b ha hb
    obtain ⟨e, g1, g2⟩ := cascade_scale hf hv.precision ks h1 25 h2 hx h3 y hy a b ha hb
    exact ⟨e, g1.mono h2, g2.mono h2⟩
  have hr := hv.ratio
  unfold Config.stages at h
  cases hm : cfg.mode <;> rw [hm] at h <;> refine aux _ ?_ ?_ h
  · intro k hk; exact (List.mem_filter.1 hk).1
  · simp only [List.mem_cons, List.not_mem_nil, or_false] at hr
    rcases hr with hr | hr | hr | hr <;> rw [hr] <;> decide
  · intro k hk
    have := (List.mem_filter.1 hk).1
    simp only [List.mem_cons, List.not_mem_nil, or_false] at this ⊢
    omega
  · simp only [List.mem_cons, List.not_mem_nil, or_false] at hr
    rcases hr with hr | hr | hr | hr <;> rw [hr] <;> decide

end Panda
