import Verif.Spec.Flush
import Verif.Model.Flush
import Verif.Proofs.IirSilence
import Verif.Proofs.IirFinite
import Verif.Proofs.FastFloat

/-!
# Without subnormal numbers all-pass sections with coefficients below 1 get silent
-/

namespace Panda

open Examples

/-! ## The two formats -/

theorem isFloat_min : IsFloat (2⁻¹ ^ 126) := ⟨1, -126, by norm_num, by norm_num, by norm_num [zpow_neg]⟩

theorem rnd32_ge_min {q : ℚ} (h : 2⁻¹ ^ 126 * (1 - 2⁻¹ ^ 25) ≤ |q|) : 2⁻¹ ^ 126 ≤ |rnd32 q| := by
  wlog hq : 0 ≤ q generalizing q
  · have := this (q := -q) (by rwa [abs_neg]) (by linarith)
    rwa [rnd32_neg', abs_neg] at this
  rw [abs_of_nonneg hq] at h
  by_contra hc
  have hlt := lt_of_le_of_lt (le_abs_self _) (not_le.1 hc)
  obtain ⟨m, e, hm, he, hy⟩ := isFloat_rnd32 q
  -- a binary32 number below `2^-126` is at most `2^-126 - 2^-149`
  have hgap : rnd32 q ≤ 2⁻¹ ^ 126 - 2⁻¹ ^ 149 := by
    have hz : ∃ z : ℤ, rnd32 q = z * 2⁻¹ ^ 149 := by
      obtain ⟨k, hk⟩ := Int.eq_ofNat_of_zero_le (show 0 ≤ e + 149 by omega)
      refine ⟨m * 2 ^ k, ?_⟩
      rw [hy, show e = (k : ℤ) - 149 by have : e + 149 = (k : ℤ) := hk; omega, zpow_sub₀ (by norm_num)]
      push_cast
      rw [zpow_natCast]
      norm_num
      ring
    obtain ⟨z, hz⟩ := hz
    rw [hz] at hlt ⊢
    have h1 : (z : ℚ) < 2 ^ 23 := by
      rw [show (2⁻¹ : ℚ) ^ 126 = 2 ^ 23 * 2⁻¹ ^ 149 by norm_num] at hlt
      exact lt_of_mul_lt_mul_right hlt (by positivity)
    have h2 : z < 2 ^ 23 := by exact_mod_cast h1
    have h3 : (z : ℚ) ≤ 2 ^ 23 - 1 := by
      have : z ≤ 2 ^ 23 - 1 := by omega
      exact_mod_cast this
    have := mul_le_mul_of_nonneg_right h3 (by positivity : (0 : ℚ) ≤ 2⁻¹ ^ 149)
    refine this.trans (le_of_eq (by norm_num))
  have hn := rnd32_nearest q _ isFloat_min
  rcases le_total q (2⁻¹ ^ 126) with hc | hc
  · rw [abs_of_nonneg (sub_nonneg.2 hc), abs_sub_comm, abs_of_nonneg (by norm_num at h hgap ⊢; linarith)] at hn
    norm_num at h hgap hn
    linarith
  · have e1 : |2⁻¹ ^ 126 - q| = q - 2⁻¹ ^ 126 := by rw [abs_sub_comm, abs_of_nonneg (sub_nonneg.2 hc)]
    rw [e1, abs_sub_comm, abs_of_nonneg (by linarith)] at hn
    norm_num at hgap hn
    linarith

theorem rnd32_rel {q : ℚ} (h : 2⁻¹ ^ 126 * (1 - 2⁻¹ ^ 25) ≤ |q|) : |rnd32 q| ≤ (1 + 2⁻¹ ^ 22) * |q| := by
  have h1 := rnd32_err q
  have := abs_sub_abs_le_abs_sub (rnd32 q) q
  norm_num at h h1 ⊢
  linarith

theorem fits_le {q : ℚ} (h : |q| ≤ 2 ^ 120) : binary32.fits q = true := by
  refine decide_eq_true (lt_of_le_of_lt h (by norm_num))

theorem flushing_ftz : Flushing binary32ftz where
  grows q := by
    show |rndFtz q| ≤ _
    unfold rndFtz
    split
    · rw [abs_zero]; positivity
    · exact rnd32_rel (not_lt.1 ‹_›)
  flushed q := by
    show rndFtz q = 0 ∨ _ ≤ |rndFtz q|
    unfold rndFtz
    split
    · exact Or.inl rfl
    · exact Or.inr (rnd32_ge_min (not_lt.1 ‹_›))
  fits q h := fits_le h

theorem flushing_fz : Flushing binary32fz where
  grows q := by
    show |rndFz q| ≤ _
    unfold rndFz
    split
    · rw [abs_zero]; positivity
    · exact rnd32_rel (le_trans (by norm_num : (2⁻¹ ^ 126 * (1 - 2⁻¹ ^ 25) : ℚ) ≤ 2⁻¹ ^ 126) (not_lt.1 ‹_›))
  flushed q := by
    show rndFz q = 0 ∨ _ ≤ |rndFz q|
    unfold rndFz
    split
    · exact Or.inl rfl
    · exact Or.inr (rnd32_ge_min (le_trans (by norm_num : (2⁻¹ ^ 126 * (1 - 2⁻¹ ^ 25) : ℚ) ≤ 2⁻¹ ^ 126) (not_lt.1 ‹_›)))
  fits q h := fits_le h

/-! ## Sections -/

variable {S : Format}

theorem Flushing.mk_fin (hS : Flushing S) {q : ℚ} (h : |q| ≤ 2 ^ 119) : Fl.mk S q = Fl.fin (S.rnd q) := by
  unfold Fl.mk
  rw [hS.fits]
  · rfl
  · have := hS.grows q
    norm_num at this h ⊢
    linarith

theorem Flushing.step (hS : Flushing S) {ρ a ah x x' y' X Y : ℚ} (hah : |ah| ≤ (1 + 2⁻¹ ^ 22) * a) (h0 : 0 ≤ a)
    (hρ : a * (1 + 2⁻¹ ^ 19) ≤ ρ) (hρ1 : ρ ≤ 31 / 32) (hx : |x| ≤ X) (hx' : |x'| ≤ X) (hy' : |y'| ≤ Y) (hΩ : X + Y ≤ 2 ^ 117) :
    ∃ y, (Fl.fin x - Fl.fin y') * Fl.fin ah + Fl.fin x' = (Fl.fin y : Fl S) ∧ |y| ≤ ρ * (X + Y) + 2 * X ∧ (y = 0 ∨ 2⁻¹ ^ 126 ≤ |y|) := by
  have hX : 0 ≤ X := (abs_nonneg _).trans hx
  have hY : 0 ≤ Y := (abs_nonneg _).trans hy'
  have b1 : |x - y'| ≤ X + Y := (abs_sub _ _).trans (add_le_add hx hy')
  have r1 := (hS.grows (x - y')).trans (mul_le_mul_of_nonneg_left b1 (by positivity))
  have e1 : (Fl.fin x - Fl.fin y' : Fl S) = Fl.fin (S.rnd (x - y')) := hS.mk_fin (b1.trans (hΩ.trans (by norm_num)))
  have b2 : |S.rnd (x - y') * ah| ≤ (1 + 2⁻¹ ^ 22) ^ 2 * a * (X + Y) := by
    rw [abs_mul]
    refine (mul_le_mul r1 hah (abs_nonneg _) (by positivity)).trans (le_of_eq (by ring))
  have k : (1 + 2⁻¹ ^ 22 : ℚ) ^ 4 * a ≤ ρ := by
    refine le_trans ?_ hρ
    rw [mul_comm a]
    exact mul_le_mul_of_nonneg_right (by norm_num) h0
  have hρ0 : 0 ≤ ρ := le_trans (by positivity) k
  have hb : (1 + 2⁻¹ ^ 22 : ℚ) ^ 4 * a * (X + Y) ≤ ρ * (X + Y) := mul_le_mul_of_nonneg_right k (by positivity)
  have hb' : ρ * (X + Y) ≤ X + Y := mul_le_of_le_one_left (by positivity) (by linarith)
  have p0 : 0 ≤ a * (X + Y) := by positivity
  have hsm : (1 + 2⁻¹ ^ 22 : ℚ) ^ 2 * a * (X + Y) ≤ X + Y := by
    norm_num at hb hb' ⊢
    linarith
  have e2 : (Fl.fin (S.rnd (x - y')) * Fl.fin ah : Fl S) = Fl.fin (S.rnd (S.rnd (x - y') * ah)) :=
    hS.mk_fin (b2.trans (hsm.trans (hΩ.trans (by norm_num))))
  have r2 := (hS.grows (S.rnd (x - y') * ah)).trans (mul_le_mul_of_nonneg_left b2 (by positivity))
  have b3 : |S.rnd (S.rnd (x - y') * ah) + x'| ≤ (1 + 2⁻¹ ^ 22) ^ 3 * a * (X + Y) + X :=
    (abs_add_le _ _).trans (add_le_add (r2.trans (le_of_eq (by ring))) hx')
  have e3 : (Fl.fin (S.rnd (S.rnd (x - y') * ah)) + Fl.fin x' : Fl S) = Fl.fin (S.rnd (S.rnd (S.rnd (x - y') * ah) + x')) := by
    refine hS.mk_fin (b3.trans ?_)
    norm_num at hb hb' hΩ ⊢
    linarith
  refine ⟨_, by rw [e1, e2, e3], ?_, hS.flushed _⟩
  refine (hS.grows _).trans ((mul_le_mul_of_nonneg_left b3 (by positivity)).trans ?_)
  have : (1 + 2⁻¹ ^ 22 : ℚ) * ((1 + 2⁻¹ ^ 22) ^ 3 * a * (X + Y) + X) = (1 + 2⁻¹ ^ 22) ^ 4 * a * (X + Y) + (1 + 2⁻¹ ^ 22) * X := by ring
  rw [this]
  refine add_le_add hb (mul_le_mul_of_nonneg_right (by norm_num) hX)

/-- Inputs up to `X` give finite outputs up to `G X`; zeros in the input become zeros in the output `K` samples later. -/
def Dies (S : Format) (T : (ℕ → Fl S) → ℕ → Fl S) (G : ℚ) (K : ℕ) : Prop :=
  ∀ X, 0 < X → G * X ≤ 2 ^ 110 → ∀ x : ℕ → ℚ, (∀ n, |x n| ≤ X) →
    ∃ y : ℕ → ℚ, (∀ n, T (fun k => Fl.fin (x k)) n = Fl.fin (y n)) ∧ (∀ n, |y n| ≤ G * X) ∧
      ∀ N, (∀ n ≥ N, x n = 0) → ∀ n ≥ N + K, y n = 0

theorem Dies.comp {T1 T2 : (ℕ → Fl S) → ℕ → Fl S} {G1 G2 : ℚ} {K1 K2 : ℕ} (h1 : Dies S T1 G1 K1) (h2 : Dies S T2 G2 K2) (hG1 : 1 ≤ G1)
    (hG2 : 1 ≤ G2) : Dies S (fun x => T2 (T1 x)) (G2 * G1) (K1 + K2) := by
  intro X hX0 hX x hx
  obtain ⟨y, y1, y2, y3⟩ := h1 X hX0 (by nlinarith [mul_pos (by linarith : 0 < G1) hX0]) x hx
  obtain ⟨z, z1, z2, z3⟩ := h2 (G1 * X) (by positivity) (by rw [← mul_assoc]; exact hX) y y2
  refine ⟨z, fun n => ?_, fun n => (z2 n).trans (le_of_eq (by ring)), fun N hN n hn => ?_⟩
  · show T2 (T1 fun k => Fl.fin (x k)) n = _
    rw [show T1 (fun k => Fl.fin (x k)) = fun k => Fl.fin (y k) from funext y1]
    exact z1 n
  · exact z3 (N + K1) (y3 N hN) n (by omega)

theorem Dies.id : Dies S (fun x => x) 1 0 := fun X _ _ x hx =>
  ⟨x, fun _ => rfl, fun n => by rw [one_mul]; exact hx n, fun N hN n hn => hN n (by omega)⟩

theorem Dies.mono {T : (ℕ → Fl S) → ℕ → Fl S} {G G' : ℚ} {K K' : ℕ} (h : Dies S T G K) (hG : G ≤ G') (hK : K ≤ K') : Dies S T G' K' := by
  intro X hX0 hX x hx
  obtain ⟨y, y1, y2, y3⟩ := h X hX0 (by nlinarith) x hx
  exact ⟨y, y1, fun n => (y2 n).trans (by nlinarith), fun N hN n hn => y3 N hN n (by omega)⟩

/-- The coefficients the proof is for. -/
def DieOk (d : Dec) : Prop := 0 < d.toRat ∧ d.toRat * (1 + 2⁻¹ ^ 19) * 1024 ≤ milliCoef d ∧ milliCoef d ≤ 992 ∧
  milliCoef d ^ halfTime d * 2 ≤ 1024 ^ halfTime d

instance (d : Dec) : Decidable (DieOk d) := inferInstanceAs (Decidable (_ ∧ _ ∧ _ ∧ _))

theorem Flushing.coef (hS : Flushing S) {d : Dec} (h : DieOk d) : (Sample.ofDouble d.toRat : Fl S) = Fl.fin (S.rnd d.toRat) ∧
    |S.rnd d.toRat| ≤ (1 + 2⁻¹ ^ 22) * d.toRat := by
  obtain ⟨h1, h2, h3, -⟩ := h
  have hg := hS.grows d.toRat
  rw [abs_of_pos h1] at hg
  refine ⟨hS.mk_fin ?_, hg⟩
  have : (milliCoef d : ℚ) ≤ 992 := by exact_mod_cast h3
  rw [abs_of_pos h1]
  norm_num at h2 ⊢
  linarith

theorem allpass_dies (hS : Flushing S) {d : Dec} (hd : DieOk d) : Dies S (allpass (Sample.ofDouble d.toRat)) 128 (dieTime d) := by
  obtain ⟨e0, hah⟩ := hS.coef hd
  obtain ⟨h0, h1, h2, h3⟩ := hd
  set ρ : ℚ := milliCoef d / 1024 with hρ
  have hρ1 : d.toRat * (1 + 2⁻¹ ^ 19) ≤ ρ := by
    rw [hρ, le_div_iff₀ (by norm_num)]
    exact h1
  have hρ2 : ρ ≤ 31 / 32 := by
    have : (milliCoef d : ℚ) ≤ 992 := by exact_mod_cast h2
    rw [hρ]
    linarith
  have hρ0 : 0 ≤ ρ := by positivity
  have hhalf : ρ ^ halfTime d ≤ 1 / 2 := by
    rw [hρ, div_pow, div_le_iff₀ (by positivity)]
    have : ((milliCoef d : ℚ)) ^ halfTime d * 2 ≤ 1024 ^ halfTime d := by exact_mod_cast h3
    linarith
  intro X hX0 hX x hx
  rw [e0]
  have all : ∀ n, ∃ y : ℚ, allpass (Fl.fin (S.rnd d.toRat)) (fun k => (Fl.fin (x k) : Fl S)) n = Fl.fin y ∧ |y| ≤ 128 * X := by
    intro n
    induction n with
    | zero =>
      obtain ⟨y, e1, e2, -⟩ := hS.step hah h0.le hρ1 hρ2 (hx 0) (x' := 0) (y' := 0) (Y := 0) (by rw [abs_zero]; exact hX0.le) (by simp)
        (by norm_num at hX ⊢; linarith)
      exact ⟨y, e1, by nlinarith⟩
    | succ n ih =>
      obtain ⟨y', e1, e2⟩ := ih
      obtain ⟨y, f1, f2, -⟩ := hS.step hah h0.le hρ1 hρ2 (hx (n + 1)) (hx n) e2 (by norm_num at hX ⊢; linarith)
      refine ⟨y, ?_, by nlinarith⟩
      rw [allpass, e1]
      exact f1
  choose y y1 y2 using all
  refine ⟨y, y1, y2, fun N hN n hn => ?_⟩
  have stp : ∀ n ≥ N, |y (n + 1)| ≤ ρ * |y n| ∧ (y (n + 1) = 0 ∨ 2⁻¹ ^ 126 ≤ |y (n + 1)|) := by
    intro n hn
    obtain ⟨z, f1, f2, f3⟩ := hS.step hah h0.le hρ1 hρ2 (x := x (n + 1)) (x' := x n) (X := 0) (Y := |y n|) (by rw [hN (n + 1) (by omega), abs_zero])
      (by rw [hN n hn, abs_zero]) le_rfl (by have := y2 n; norm_num at hX ⊢; linarith)
    have e : (Fl.fin z : Fl S) = Fl.fin (y (n + 1)) := by
      rw [← y1 (n + 1), allpass, y1 n, ← f1]
    rw [← Option.some.inj e]
    exact ⟨by simpa using f2, f3⟩
  have dec : ∀ k, |y (N + k)| ≤ ρ ^ k * 2 ^ 110 := by
    intro k
    induction k with
    | zero => simpa using (y2 N).trans hX
    | succ k ih =>
      refine ((stp (N + k) (by omega)).1.trans (mul_le_mul_of_nonneg_left ih hρ0)).trans (le_of_eq ?_)
      rw [pow_succ]
      ring
  obtain ⟨j, rfl⟩ := Nat.exists_eq_add_of_le hn
  have hK : 0 < dieTime d := by
    unfold dieTime
    rcases Nat.eq_zero_or_pos (halfTime d) with h | h
    · rw [h] at hhalf
      norm_num at hhalf
    · omega
  have hlt : |y (N + dieTime d + j)| ≤ 2⁻¹ ^ 127 := by
    rw [show N + dieTime d + j = N + (dieTime d + j) by omega]
    refine (dec _).trans ?_
    have : ρ ^ (dieTime d + j) ≤ 2⁻¹ ^ 237 := by
      refine (pow_le_pow_of_le_one hρ0 (by linarith) (Nat.le_add_right (dieTime d) j)).trans ?_
      unfold dieTime
      rw [mul_comm, pow_mul]
      exact pow_le_pow_left₀ (by positivity) (by simpa using hhalf) _
    exact (mul_le_mul_of_nonneg_right this (by positivity)).trans (by norm_num)
  obtain ⟨i, hi⟩ := Nat.exists_eq_succ_of_ne_zero (show N + dieTime d + j ≠ 0 by omega)
  rw [hi] at hlt ⊢
  refine (stp i (by omega)).2.resolve_right fun h => ?_
  have := h.trans hlt
  norm_num at this

theorem apChain_dies (hS : Flushing S) (ds : List Dec) (hd : ∀ d ∈ ds, DieOk d) :
    Dies S (apChain (ds.map fun d => (Sample.ofDouble d.toRat : Fl S))) (128 ^ ds.length) (ds.map dieTime).sum := by
  induction ds with
  | nil => simpa [apChain] using Dies.id
  | cons d ds ih =>
    have h1 := allpass_dies hS (hd d (by simp))
    have h2 := ih fun d hd' => hd d (by simp [hd'])
    have := h1.comp h2 (by norm_num) (one_le_pow₀ (by norm_num))
    rw [List.length_cons, pow_succ, List.map_cons, List.map_cons, List.sum_cons]
    exact this

/-- Half the sum of two samples. -/
theorem Flushing.half (hS : Flushing S) {p q Z : ℚ} (hZ : Z ≤ 2 ^ 112) (hp : |p| ≤ Z / 2) (hq : |q| ≤ Z / 2) :
    ∃ y, (Fl.fin p + Fl.fin q) * Sample.half = (Fl.fin y : Fl S) ∧ |y| ≤ Z ∧ (p = 0 → q = 0 → y = 0) := by
  have hZ0 : 0 ≤ Z := by have := abs_nonneg p; linarith
  have hpq : |p + q| ≤ Z := (abs_add_le _ _).trans (by linarith)
  have r1 := hS.grows (p + q)
  have e1 : (Fl.fin p + Fl.fin q : Fl S) = Fl.fin (S.rnd (p + q)) := hS.mk_fin (hpq.trans (hZ.trans (by norm_num)))
  have b2 : |S.rnd (p + q) * (1 / 2)| ≤ 5 / 8 * Z := by
    rw [abs_mul, abs_of_pos (by norm_num : (0 : ℚ) < 1 / 2)]
    norm_num at r1 ⊢
    linarith
  have e2 : (Fl.fin (S.rnd (p + q)) * Fl.fin (1 / 2) : Fl S) = Fl.fin (S.rnd (S.rnd (p + q) * (1 / 2))) :=
    hS.mk_fin (b2.trans (by norm_num at hZ ⊢; linarith))
  have r2 := hS.grows (S.rnd (p + q) * (1 / 2))
  have zero : S.rnd 0 = 0 := by simpa using hS.grows 0
  refine ⟨_, by rw [e1]; exact e2, ?_, fun h1 h2 => by rw [h1, h2, add_zero, zero, zero_mul, zero]⟩
  norm_num at r2 b2 ⊢
  linarith

/-! ## Stages -/

theorem branchTime_eq (t : List Dec) (b : ℕ) : branchTime t b = ((branchDecs t b).map dieTime).sum := by
  unfold branchTime branchDecs branchLen
  rw [List.map_map]
  rfl

/-- Input samples for one stage. -/
def oneTime (m : Mode) (t : List Dec) : ℕ :=
  match m with
  | .up => stageTime t
  | .down => 2 * stageTime t + 1

theorem iirStage_dies (hS : Flushing S) {m : Mode} {sse : Bool} {t : List Dec} (ht : ∀ d ∈ t, DieOk d)
    (hsse : sse = true → t.length % 2 = 0) {X : ℚ} (hX0 : 0 < X) (hX : dampGain t * X ≤ 2 ^ 110) (xs : List ℚ) (ys : List (Fl S))
    (h : Stage.Rel (iirStageOf m sse t) (xs.map fun q => (Fl.fin q : Fl S)) ys) (hx : ∀ n, |seq xs n| ≤ X) :
    ∃ yq : List ℚ, ys = yq.map (fun q => Fl.fin q) ∧ (∀ n, |seq yq n| ≤ dampGain t * X) ∧
        ∀ N, (∀ n ≥ N, seq xs n = 0) → ∀ n, late m 1 N (oneTime m t) n → seq yq n = 0 := by
  set g : ℚ := 128 ^ ((t.length + 1) / 2) with hg
  have hg1 : 1 ≤ g := one_le_pow₀ (by norm_num)
  have hdg : dampGain t = 2 * g := rfl
  have hb : ∀ b < 2, Dies S (branchOut t.length (seq (t.map fun d => (Sample.ofDouble d.toRat : Fl S))) b) g (stageTime t) := by
    intro b hb
    have e : branchOut t.length (seq (t.map fun d => (Sample.ofDouble d.toRat : Fl S))) b =
        apChain ((branchDecs t b).map fun d => (Sample.ofDouble d.toRat : Fl S)) :=
      funext fun x => branchOut_eq_apChain t _ b x
    rw [e]
    refine (apChain_dies hS (branchDecs t b) fun d hd => ht d (mem_branchDecs hd)).mono ?_ ?_
    · refine pow_le_pow_right₀ (by norm_num) ?_
      simp only [branchDecs, List.length_map, List.length_range, branchLen]
      omega
    · rw [← branchTime_eq]
      unfold stageTime
      rcases (show b = 0 ∨ b = 1 by omega) with rfl | rfl
      · exact le_max_left _ _
      · exact le_max_right _ _
  have hgX : g * X ≤ 2 ^ 110 := by rw [hdg] at hX; nlinarith
  have hb1 : ∀ x : ℕ → Fl S, iirBranch1 sse (t.map fun d => (Sample.ofDouble d.toRat : Fl S)).length
      (seq (t.map fun d => (Sample.ofDouble d.toRat : Fl S))) x =
      branchOut t.length (seq (t.map fun d => (Sample.ofDouble d.toRat : Fl S))) 1 x := by
    intro x
    unfold iirBranch1
    rw [List.length_map, if_neg]
    rintro ⟨h1, h2⟩
    have := hsse h1
    omega
  have finish : ∀ (P : ℕ → Prop), (∀ n < ys.length, ∃ y : ℚ, seq ys n = Fl.fin y ∧ |y| ≤ dampGain t * X ∧ (P n → y = 0)) →
      ∃ yq : List ℚ, ys = yq.map (fun q => Fl.fin q) ∧ (∀ n, |seq yq n| ≤ dampGain t * X) ∧ ∀ n, P n → seq yq n = 0 := by
    intro P hy
    obtain ⟨yq, hyq⟩ := exists_fin_list ys fun n hn => ⟨_, (hy n hn).choose_spec.1⟩
    have key : ∀ n < yq.length, |seq yq n| ≤ dampGain t * X ∧ (P n → seq yq n = 0) := by
      intro n hn
      obtain ⟨y, h1, h2⟩ := hy n (by rw [hyq]; simpa using hn)
      rw [hyq, seq_fin] at h1
      rw [Option.some.inj h1]
      exact h2
    have hd := one_le_dampGain t
    refine ⟨yq, hyq, fun n => ?_, fun n hp => ?_⟩
    · rcases Nat.lt_or_ge n yq.length with hn | hn
      · exact (key n hn).1
      · rw [seq_ge hn, abs_zero]; positivity
    · rcases Nat.lt_or_ge n yq.length with hn | hn
      · exact (key n hn).2 hp
      · exact seq_ge hn
  have g2 : g * X ≤ dampGain t * X := by rw [hdg]; nlinarith
  cases m with
  | up =>
    obtain ⟨y0, a1, a2, a3⟩ := hb 0 (by omega) X hX0 hgX (seq xs) hx
    obtain ⟨y1, b1, b2, b3⟩ := hb 1 (by omega) X hX0 hgX (seq xs) hx
    obtain ⟨hl, hr⟩ : ys.length = 2 * (xs.map fun q => (Fl.fin q : Fl S)).length ∧ _ := h
    have hin : seq (xs.map fun q => (Fl.fin q : Fl S)) = fun k => Fl.fin (seq xs k) := funext (seq_fin xs)
    have := finish (fun n => ∃ N, (∀ n ≥ N, seq xs n = 0) ∧ late .up 1 N (oneTime .up t) n) (by
      intro n hn
      obtain ⟨c1, c2⟩ := hr (n / 2) (by omega)
      rw [hin] at c1 c2
      rw [hb1] at c2
      rw [List.length_map] at c1
      rcases Nat.mod_two_eq_zero_or_one n with h0 | h0
      · rw [show 2 * (n / 2) = n by omega, a1] at c1
        refine ⟨_, c1, (a2 _).trans g2, ?_⟩
        rintro ⟨N, hN, hlate⟩
        have hlate : 2 ^ 1 * (N + stageTime t) ≤ n := hlate
        exact a3 N hN _ (by omega)
      · rw [show 2 * (n / 2) + 1 = n by omega, b1] at c2
        refine ⟨_, c2, (b2 _).trans g2, ?_⟩
        rintro ⟨N, hN, hlate⟩
        have hlate : 2 ^ 1 * (N + stageTime t) ≤ n := hlate
        exact b3 N hN _ (by omega))
    obtain ⟨yq, e1, e2, e3⟩ := this
    exact ⟨yq, e1, e2, fun N hN n hl => e3 n ⟨N, hN, hl⟩⟩
  | down =>
    obtain ⟨y0, a1, a2, a3⟩ := hb 0 (by omega) X hX0 hgX (odds (seq xs)) fun n => hx _
    obtain ⟨y1, b1, b2, b3⟩ := hb 1 (by omega) X hX0 hgX (evens (seq xs)) fun n => hx _
    obtain ⟨hl, hr⟩ : (xs.map fun q => (Fl.fin q : Fl S)).length = 2 * ys.length ∧ _ := h
    have hodd : odds (seq (xs.map fun q => (Fl.fin q : Fl S))) = fun k => Fl.fin (odds (seq xs) k) := funext fun k => seq_fin xs _
    have heven : evens (seq (xs.map fun q => (Fl.fin q : Fl S))) = fun k => Fl.fin (evens (seq xs) k) := funext fun k => seq_fin xs _
    have := finish (fun n => ∃ N, (∀ n ≥ N, seq xs n = 0) ∧ late .down 1 N (oneTime .down t) n) (by
      intro n hn
      have c := hr n hn
      rw [hodd, heven, hb1] at c
      simp only [List.length_map] at c
      rw [a1, b1] at c
      have val : ∃ y : ℚ, seq ys n = Fl.fin y ∧ |y| ≤ dampGain t * X ∧ (y0 n = 0 → y1 n = 0 → y = 0) := by
        have hcomm : ∀ a b : Fl S, a * b = b * a := by
          intro a b
          cases a <;> cases b <;> try rfl
          exact congrArg (Fl.mk S) (mul_comm _ _)
        have hZ : dampGain t * X ≤ 2 ^ 112 := hX.trans (by norm_num)
        have z0 : |y0 n| ≤ dampGain t * X / 2 := (a2 n).trans (le_of_eq (by rw [hdg]; ring))
        have z1 : |y1 n| ≤ dampGain t * X / 2 := (b2 n).trans (le_of_eq (by rw [hdg]; ring))
        cases sse with
        | true =>
          rw [if_pos rfl] at c
          obtain ⟨y, e1, e2, e3⟩ := hS.half hZ z1 z0
          exact ⟨y, c.trans e1, e2, fun h1 h2 => e3 h2 h1⟩
        | false =>
          rw [if_neg (by simp), hcomm] at c
          obtain ⟨y, e1, e2, e3⟩ := hS.half hZ z0 z1
          exact ⟨y, c.trans e1, e2, e3⟩
      obtain ⟨y, e1, e2, e3⟩ := val
      refine ⟨y, e1, e2, ?_⟩
      rintro ⟨N, hN, hlate⟩
      have hlate : N + (2 * stageTime t + 1) ≤ 2 ^ 1 * n := hlate
      exact e3 (a3 ((N + 1) / 2) (fun j hj => hN (2 * j + 1) (by omega)) n (by omega))
        (b3 ((N + 1) / 2) (fun j hj => hN (2 * j) (by omega)) n (by omega)))
    obtain ⟨yq, e1, e2, e3⟩ := this
    exact ⟨yq, e1, e2, fun N hN n hl => e3 n ⟨N, hN, hl⟩⟩

theorem iir_cascade_dies (hS : Flushing S) {m : Mode} {sse : Bool} (ts : List (List Dec)) (ht : ∀ t ∈ ts, ∀ d ∈ t, DieOk d)
    (hsse : sse = true → ∀ t ∈ ts, t.length % 2 = 0) {X : ℚ} (hX0 : 0 < X) (hX : (ts.map dampGain).prod * X ≤ 2 ^ 110)
    (xs : List ℚ) (zs : List (Fl S)) (h : CascadeRel (ts.map fun t => iirStageOf m sse t) (xs.map fun q => (Fl.fin q : Fl S)) zs)
    (hx : ∀ n, |seq xs n| ≤ X) : ∃ zq : List ℚ, zs = zq.map (fun q => Fl.fin q) ∧
      ∀ N, (∀ n ≥ N, seq xs n = 0) → ∀ n, late m ts.length N (silenceTime m ts) n → seq zq n = 0 := by
  induction ts generalizing X xs with
  | nil =>
    refine ⟨xs, h, fun N hN n hl => ?_⟩
    exact hN n (by cases m <;> simpa [late, silenceTime] using hl)
  | cons t ts ih =>
    have hd := one_le_dampGain t
    have hP : 1 ≤ (ts.map dampGain).prod := by
      clear ih hX ht hsse h
      induction ts with
      | nil => simp
      | cons t ts ih =>
        rw [List.map_cons, List.prod_cons]
        have := one_le_dampGain t
        nlinarith
    rw [List.map_cons, List.prod_cons] at hX
    have hdX : 0 < dampGain t * X := by positivity
    obtain ⟨ys, h1, h2⟩ := h
    obtain ⟨yq, rfl, y1, y2⟩ := iirStage_dies hS (ht t (by simp)) (fun h => hsse h t (by simp)) hX0 (by nlinarith) xs ys h1 hx
    obtain ⟨zq, z1, z2⟩ := ih (fun t h => ht t (by simp [h])) (fun h t h' => hsse h t (by simp [h'])) hdX (by linarith) yq h2 y1
    refine ⟨zq, z1, fun N hN n hl => ?_⟩
    rw [List.length_cons] at hl
    cases m with
    | up =>
      refine z2 (2 * (N + stageTime t)) (fun j hj => y2 N hN j (by show 2 ^ 1 * (N + stageTime t) ≤ j; omega)) n ?_
      have hl : 2 ^ (ts.length + 1) * (N + (stageTime t + (silenceTime .up ts + 1) / 2)) ≤ n := hl
      show 2 ^ ts.length * (2 * (N + stageTime t) + silenceTime .up ts) ≤ n
      refine le_trans ?_ hl
      rw [pow_succ, mul_assoc]
      exact Nat.mul_le_mul_left _ (by omega)
    | down =>
      refine z2 ((N + (2 * stageTime t + 1) + 1) / 2) (fun j hj => y2 N hN j (by show N + (2 * stageTime t + 1) ≤ 2 ^ 1 * j; omega)) n ?_
      have hl : N + (2 * stageTime t + 1 + 2 * silenceTime .down ts + 1) ≤ 2 ^ (ts.length + 1) * n := hl
      show (N + (2 * stageTime t + 1) + 1) / 2 + silenceTime .down ts ≤ 2 ^ ts.length * n
      rw [pow_succ, mul_comm (2 ^ ts.length) 2, mul_assoc] at hl
      omega

end Panda
