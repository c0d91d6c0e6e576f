import Verif.Proofs.IirRoundStage

/-!
# binary32: all-pass sections with coefficients below 1 get silent

`Damped T G`: inputs up to `X` give finite outputs up to `G X`; and when the input is at most `ε` from some sample on, the output is at most
`G ε` from `K` samples later on, where `K` depends on `X` and `ε` only.
-/

namespace Panda

open Examples

/-- The smallest level considered (above the subnormal numbers). -/
def quiet : ℚ := 2⁻¹ ^ 130

theorem quiet_pos : 0 < quiet := by unfold quiet; positivity

def Damped (T : (ℕ → Fl binary32) → ℕ → Fl binary32) (G : ℚ) : Prop :=
  ∀ X ε, quiet ≤ ε → ε ≤ X → G * X ≤ 2 ^ 110 → ∃ K, ∀ x : ℕ → ℚ, (∀ n, |x n| ≤ X) →
    ∃ y : ℕ → ℚ, (∀ n, T (fun k => Fl.fin (x k)) n = Fl.fin (y n)) ∧ (∀ n, |y n| ≤ G * X) ∧
      ∀ N, (∀ n ≥ N, |x n| ≤ ε) → ∀ n ≥ N + K, |y n| ≤ G * ε

theorem Damped.comp {T1 T2 : (ℕ → Fl binary32) → ℕ → Fl binary32} {G1 G2 : ℚ} (h1 : Damped T1 G1) (h2 : Damped T2 G2) (hG1 : 1 ≤ G1) (hG2 : 1 ≤ G2) :
    Damped (fun x => T2 (T1 x)) (G2 * G1) := by
  intro X ε hq hε hX
  have hε0 : 0 < ε := quiet_pos.trans_le hq
  have hX0 : 0 < X := hε0.trans_le hε
  obtain ⟨K1, k1⟩ := h1 X ε hq hε (by nlinarith [mul_pos (by linarith : 0 < G1) hX0])
  obtain ⟨K2, k2⟩ := h2 (G1 * X) (G1 * ε) (by nlinarith) (mul_le_mul_of_nonneg_left hε (by linarith)) (by rw [← mul_assoc]; exact hX)
  refine ⟨K1 + K2, fun x hx => ?_⟩
  obtain ⟨y, y1, y2, y3⟩ := k1 x hx
  obtain ⟨z, z1, z2, z3⟩ := k2 y y2
  refine ⟨z, fun n => ?_, fun n => (z2 n).trans (le_of_eq (by ring)), fun N hN n hn => ?_⟩
  · show T2 (T1 fun k => Fl.fin (x k)) n = _
    rw [show T1 (fun k => Fl.fin (x k)) = fun k => Fl.fin (y k) from funext y1]
    exact z1 n
  · exact (z3 (N + K1) (y3 N hN) n (by omega)).trans (le_of_eq (by ring))

theorem Damped.id : Damped (fun x => x) 1 := fun X ε _ _ _ =>
  ⟨0, fun x hx => ⟨x, fun _ => rfl, fun n => by rw [one_mul]; exact hx n, fun N hN n hn => by rw [one_mul]; exact hN n (by omega)⟩⟩

/-- One sample of a section. -/
theorem damp_step {a ah x x' y' X Y : ℚ} (h0 : 0 ≤ a) (h1 : a ≤ 15 / 16) (hah : |ah - a| ≤ u32r * a) (hq : quiet ≤ X)
    (hx : |x| ≤ X) (hx' : |x'| ≤ X) (hy' : |y'| ≤ Y) (hΩ : X + Y ≤ 2 ^ 121) :
    ∃ y, (Fl.fin x - Fl.fin y') * Fl.fin ah + Fl.fin x' = (Fl.fin y : Fl binary32) ∧ |y| ≤ 31 / 32 * Y + 3 * X := by
  have hX : 0 ≤ X := (abs_nonneg _).trans hx
  have hY : 0 ≤ Y := (abs_nonneg _).trans hy'
  have hη : (2⁻¹ ^ 150 : ℚ) ≤ X / 2 ^ 20 := by
    refine le_trans ?_ (div_le_div_of_nonneg_right hq (by positivity))
    norm_num [quiet]
  obtain ⟨e1, e2⟩ := section_step (binary32_acc (Ω := 2 ^ 127) (by norm_num)) h0 (h1.trans (by norm_num)) hah hx hx' hy' (by
    norm_num at hΩ hη ⊢
    linarith)
  refine ⟨_, e1, ?_⟩
  have hl : localErr a X Y (2⁻¹ ^ 150) ≤ (X + Y) / 64 + X / 64 := by
    unfold localErr
    have hu : u32r = 1 / 16777216 := by norm_num [u32r]
    rw [hu]
    norm_num at hη ⊢
    nlinarith [mul_nonneg h0 hX, mul_nonneg h0 hY, mul_le_mul_of_nonneg_right h1 hX, mul_le_mul_of_nonneg_right h1 hY]
  have hm : |(x - y') * a + x'| ≤ 15 / 16 * (X + Y) + X := by
    refine (abs_add_le _ _).trans (add_le_add ?_ hx')
    rw [abs_mul, abs_of_nonneg h0, mul_comm]
    exact mul_le_mul h1 ((abs_sub _ _).trans (add_le_add hx hy')) (abs_nonneg _) (by norm_num)
  have := abs_sub_abs_le_abs_sub (binary32.rnd (binary32.rnd (binary32.rnd (x - y') * ah) + x')) ((x - y') * a + x')
  linarith

theorem allpass_damped {a ah : ℚ} (h0 : 0 ≤ a) (h1 : a ≤ 15 / 16) (hah : |ah - a| ≤ u32r * a) : Damped (allpass (Fl.fin ah)) 128 := by
  intro X ε hq hε hX
  have hε0 : 0 < ε := quiet_pos.trans_le hq
  have hX0 : 0 < X := hε0.trans_le hε
  obtain ⟨K, hK⟩ := exists_pow_lt_of_lt_one (show (0 : ℚ) < ε / (4 * X) by positivity) (show (31 / 32 : ℚ) < 1 by norm_num)
  refine ⟨K + 1, fun x hx => ?_⟩
  have all : ∀ n, ∃ y : ℚ, allpass (Fl.fin ah) (fun k => (Fl.fin (x k) : Fl binary32)) n = Fl.fin y ∧ |y| ≤ 128 * X := by
    intro n
    induction n with
    | zero =>
      obtain ⟨y, e1, e2⟩ := damp_step h0 h1 hah (hq.trans hε) (hx 0) (x' := 0) (y' := 0) (Y := 0) (by rw [abs_zero]; exact hX0.le) (by simp)
        (by norm_num at hX ⊢; linarith)
      exact ⟨y, e1, by linarith⟩
    | succ n ih =>
      obtain ⟨y', e1, e2⟩ := ih
      obtain ⟨y, f1, f2⟩ := damp_step h0 h1 hah (hq.trans hε) (hx (n + 1)) (hx n) e2 (by norm_num at hX ⊢; linarith)
      refine ⟨y, ?_, by linarith⟩
      rw [allpass, e1]
      exact f1
  choose y y1 y2 using all
  refine ⟨y, y1, y2, fun N hN n hn => ?_⟩
  have dec : ∀ k, |y (N + 1 + k)| ≤ (31 / 32) ^ (k + 1) * (128 * X) + 96 * ε := by
    have stp : ∀ n ≥ N, ∀ Y, |y n| ≤ Y → Y ≤ 128 * X + 96 * ε → |y (n + 1)| ≤ 31 / 32 * Y + 3 * ε := by
      intro n hn Y hY hY2
      obtain ⟨z, f1, f2⟩ := damp_step h0 h1 hah hq (hN (n + 1) (by omega)) (hN n hn) hY (by norm_num at hX ⊢; linarith)
      have e : (Fl.fin z : Fl binary32) = Fl.fin (y (n + 1)) := by
        rw [← y1 (n + 1), allpass, y1 n, ← f1]
      rw [← Option.some.inj e]
      exact f2
    intro k
    induction k with
    | zero =>
      have := stp N le_rfl (128 * X) (y2 N) (by linarith)
      rw [add_zero]
      norm_num
      linarith
    | succ k ih =>
      have hp : (31 / 32 : ℚ) ^ (k + 1) ≤ 1 := pow_le_one₀ (by norm_num) (by norm_num)
      have := stp (N + 1 + k) (by omega) _ ih (by nlinarith)
      rw [show N + 1 + (k + 1) = N + 1 + k + 1 by omega, pow_succ]
      linarith
  obtain ⟨j, rfl⟩ := Nat.exists_eq_add_of_le (show N + 1 + K ≤ n by omega)
  have := dec (K + j)
  rw [show N + 1 + (K + j) = N + 1 + K + j by omega] at this
  refine this.trans ?_
  have hp : (31 / 32 : ℚ) ^ (K + j + 1) ≤ ε / (4 * X) := by
    refine le_trans ?_ hK.le
    exact pow_le_pow_of_le_one (by norm_num) (by norm_num) (by omega)
  have := mul_le_mul_of_nonneg_right hp (by positivity : (0 : ℚ) ≤ 128 * X)
  have e : ε / (4 * X) * (128 * X) = 32 * ε := by field_simp; norm_num
  linarith

theorem apChain_damped (ds : List Dec) (hd : ∀ d ∈ ds, 0 < d.toRat ∧ d.toRat ≤ 15 / 16) (hco : ∀ d ∈ ds, CoefOk binary32 d) :
    Damped (apChain (ds.map fun d => (Sample.ofDouble d.toRat : Fl binary32))) (128 ^ ds.length) := by
  induction ds with
  | nil => simpa [apChain] using Damped.id
  | cons d ds ih =>
    obtain ⟨c1, c2⟩ := hco d (by simp)
    have e : (Sample.ofDouble d.toRat : Fl binary32) = Fl.fin (binary32.rnd d.toRat) := by
      show Fl.mk binary32 d.toRat = _
      unfold Fl.mk
      rw [c2]
      rfl
    have h1 := allpass_damped (hd d (by simp)).1.le (hd d (by simp)).2 c1
    have h2 := ih (fun d hd' => hd d (by simp [hd'])) (fun d hd' => hco d (by simp [hd']))
    have := h1.comp h2 (by norm_num) (one_le_pow₀ (by norm_num))
    rw [List.length_cons, pow_succ, List.map_cons, e]
    exact this

theorem Damped.mono {T : (ℕ → Fl binary32) → ℕ → Fl binary32} {G G' : ℚ} (h : Damped T G) (hG : G ≤ G') : Damped T G' := by
  intro X ε hq hε hX
  have hε0 : 0 < ε := quiet_pos.trans_le hq
  have hX0 : 0 < X := hε0.trans_le hε
  obtain ⟨K, k⟩ := h X ε hq hε (by nlinarith)
  refine ⟨K, fun x hx => ?_⟩
  obtain ⟨y, y1, y2, y3⟩ := k x hx
  exact ⟨y, y1, fun n => (y2 n).trans (by nlinarith), fun N hN n hn => (y3 N hN n hn).trans (by nlinarith)⟩

/-- Half the sum of two samples. -/
theorem half_le {p q Z : ℚ} (hq : quiet ≤ Z) (hZ : Z ≤ 2 ^ 112) (h : |p + q| ≤ Z) :
    ∃ y, (Fl.fin p + Fl.fin q) * Sample.half = (Fl.fin y : Fl binary32) ∧ |y| ≤ Z := by
  have hacc := binary32_acc (Ω := 2 ^ 127) (by norm_num)
  have hη : (2⁻¹ ^ 150 : ℚ) ≤ Z / 2 ^ 20 := by
    refine le_trans ?_ (div_le_div_of_nonneg_right hq (by positivity))
    norm_num [quiet]
  have hu : u32r = 1 / 16777216 := by norm_num [u32r]
  have hZ0 : 0 ≤ Z := (abs_nonneg _).trans h
  have e1 : (Fl.fin p + Fl.fin q : Fl binary32) = Fl.fin (binary32.rnd (p + q)) := fin_add hacc (by
    rw [hu]; norm_num at hη hZ ⊢; linarith)
  have r1 := hacc.err (p + q)
  have b1 : |binary32.rnd (p + q)| ≤ 5 / 4 * Z := by
    have := abs_sub_abs_le_abs_sub (binary32.rnd (p + q)) (p + q)
    norm_num at hη r1 ⊢
    linarith
  have b2 : |binary32.rnd (p + q) * (1 / 2)| ≤ 5 / 8 * Z := by
    rw [abs_mul, abs_of_pos (by norm_num : (0 : ℚ) < 1 / 2)]
    linarith
  have e2 : (Fl.fin (binary32.rnd (p + q)) * Fl.fin (1 / 2) : Fl binary32) = Fl.fin (binary32.rnd (binary32.rnd (p + q) * (1 / 2))) :=
    fin_mul hacc (by rw [hu]; norm_num at hη hZ b2 ⊢; linarith)
  refine ⟨_, by rw [e1]; exact e2, ?_⟩
  have r2 := hacc.err (binary32.rnd (p + q) * (1 / 2))
  have := abs_sub_abs_le_abs_sub (binary32.rnd (binary32.rnd (p + q) * (1 / 2))) (binary32.rnd (p + q) * (1 / 2))
  norm_num at hη r2 b2 this ⊢
  linarith

/-- Output samples from which on the effect of the input before sample `N` is gone after `s` stages. -/
def late (m : Mode) (s N K n : ℕ) : Prop :=
  match m with
  | .up => 2 ^ s * (N + K) ≤ n
  | .down => N + K ≤ 2 ^ s * n

/-- Gain of a stage (crude). -/
def dampGain (t : List Dec) : ℚ := 2 * 128 ^ ((t.length + 1) / 2)

theorem one_le_dampGain (t : List Dec) : 1 ≤ dampGain t := by
  have : (1 : ℚ) ≤ 128 ^ ((t.length + 1) / 2) := one_le_pow₀ (by norm_num)
  unfold dampGain
  linarith

theorem iirStage_silent {m : Mode} {sse : Bool} {t : List Dec} (ht : ∀ d ∈ t, 0 < d.toRat ∧ d.toRat ≤ 15 / 16) (hco : ∀ d ∈ t, CoefOk binary32 d)
    (hsse : sse = true → t.length % 2 = 0) (X ε : ℚ) (hq : quiet ≤ ε) (hε : ε ≤ X) (hX : dampGain t * X ≤ 2 ^ 110) :
    ∃ K, ∀ (xs : List ℚ) (ys : List (Fl binary32)), Stage.Rel (iirStageOf m sse t) (xs.map fun q => (Fl.fin q : Fl binary32)) ys →
      (∀ n, |seq xs n| ≤ X) → ∃ yq : List ℚ, ys = yq.map (fun q => Fl.fin q) ∧ (∀ n, |seq yq n| ≤ dampGain t * X) ∧
        ∀ N, (∀ n ≥ N, |seq xs n| ≤ ε) → ∀ n, late m 1 N K n → |seq yq n| ≤ dampGain t * ε := by
  have hε0 : 0 < ε := quiet_pos.trans_le hq
  have hX0 : 0 < X := hε0.trans_le hε
  set g : ℚ := 128 ^ ((t.length + 1) / 2) with hg
  have hg1 : 1 ≤ g := one_le_pow₀ (by norm_num)
  have hdg : dampGain t = 2 * g := rfl
  have hb : ∀ b < 2, Damped (branchOut t.length (seq (t.map fun d => (Sample.ofDouble d.toRat : Fl binary32))) b) g := by
    intro b hb
    have e : branchOut t.length (seq (t.map fun d => (Sample.ofDouble d.toRat : Fl binary32))) b =
        apChain ((branchDecs t b).map fun d => (Sample.ofDouble d.toRat : Fl binary32)) :=
      funext fun x => branchOut_eq_apChain t _ b x
    rw [e]
    refine (apChain_damped (branchDecs t b) (fun d hd => ht d (mem_branchDecs hd)) (fun d hd => hco d (mem_branchDecs hd))).mono ?_
    refine pow_le_pow_right₀ (by norm_num) ?_
    simp only [branchDecs, List.length_map, List.length_range, branchLen]
    omega
  have hgX : g * X ≤ 2 ^ 110 := by rw [hdg] at hX; nlinarith
  obtain ⟨K0, k0⟩ := hb 0 (by omega) X ε hq hε hgX
  obtain ⟨K1, k1⟩ := hb 1 (by omega) X ε hq hε hgX
  have hb1 : ∀ x : ℕ → Fl binary32, iirBranch1 sse (t.map fun d => (Sample.ofDouble d.toRat : Fl binary32)).length
      (seq (t.map fun d => (Sample.ofDouble d.toRat : Fl binary32))) x =
      branchOut t.length (seq (t.map fun d => (Sample.ofDouble d.toRat : Fl binary32))) 1 x := by
    intro x
    unfold iirBranch1
    rw [List.length_map, if_neg]
    rintro ⟨h1, h2⟩
    have := hsse h1
    omega
  have finish : ∀ (ys : List (Fl binary32)) (P : ℕ → Prop), (∀ n < ys.length, ∃ y : ℚ, seq ys n = Fl.fin y ∧ |y| ≤ dampGain t * X ∧ (P n → |y| ≤ dampGain t * ε)) →
      ∃ yq : List ℚ, ys = yq.map (fun q => Fl.fin q) ∧ (∀ n, |seq yq n| ≤ dampGain t * X) ∧ ∀ n, P n → |seq yq n| ≤ dampGain t * ε := by
    intro ys P hy
    obtain ⟨yq, rfl⟩ := exists_fin_list ys fun n hn => ⟨_, (hy n hn).choose_spec.1⟩
    have key : ∀ n < yq.length, |seq yq n| ≤ dampGain t * X ∧ (P n → |seq yq n| ≤ dampGain t * ε) := by
      intro n hn
      obtain ⟨y, h1, h2⟩ := hy n (by simpa using hn)
      rw [seq_fin] at h1
      rw [Option.some.inj h1]
      exact h2
    have hd := one_le_dampGain t
    refine ⟨yq, rfl, fun n => ?_, fun n hp => ?_⟩
    · rcases Nat.lt_or_ge n yq.length with hn | hn
      · exact (key n hn).1
      · rw [seq_ge hn, abs_zero]; positivity
    · rcases Nat.lt_or_ge n yq.length with hn | hn
      · exact (key n hn).2 hp
      · rw [seq_ge hn, abs_zero]; positivity
  have g2 : ∀ z : ℚ, 0 ≤ z → g * z ≤ dampGain t * z := fun z hz => by rw [hdg]; nlinarith
  cases m with
  | up =>
    refine ⟨K0 + K1, fun xs ys h hx => ?_⟩
    obtain ⟨y0, a1, a2, a3⟩ := k0 (seq xs) hx
    obtain ⟨y1, b1, b2, b3⟩ := k1 (seq xs) hx
    obtain ⟨hl, hr⟩ : ys.length = 2 * (xs.map fun q => (Fl.fin q : Fl binary32)).length ∧ _ := h
    have hin : seq (xs.map fun q => (Fl.fin q : Fl binary32)) = fun k => Fl.fin (seq xs k) := funext (seq_fin xs)
    have := finish ys (fun n => ∃ N, (∀ n ≥ N, |seq xs n| ≤ ε) ∧ late .up 1 N (K0 + K1) n) (by
      intro n hn
      obtain ⟨c1, c2⟩ := hr (n / 2) (by omega)
      rw [hin] at c1 c2
      rw [hb1] at c2
      rw [List.length_map] at c1
      rcases Nat.mod_two_eq_zero_or_one n with h0 | h0
      · rw [show 2 * (n / 2) = n by omega, a1] at c1
        refine ⟨_, c1, (a2 _).trans (g2 _ hX0.le), ?_⟩
        rintro ⟨N, hN, hlate⟩
        have hlate : 2 ^ 1 * (N + (K0 + K1)) ≤ n := hlate
        exact (a3 N hN _ (by omega)).trans (g2 _ hε0.le)
      · rw [show 2 * (n / 2) + 1 = n by omega, b1] at c2
        refine ⟨_, c2, (b2 _).trans (g2 _ hX0.le), ?_⟩
        rintro ⟨N, hN, hlate⟩
        have hlate : 2 ^ 1 * (N + (K0 + K1)) ≤ n := hlate
        exact (b3 N hN _ (by omega)).trans (g2 _ hε0.le))
    obtain ⟨yq, e1, e2, e3⟩ := this
    exact ⟨yq, e1, e2, fun N hN n hl => e3 n ⟨N, hN, hl⟩⟩
  | down =>
    refine ⟨2 * (K0 + K1) + 1, fun xs ys h hx => ?_⟩
    obtain ⟨y0, a1, a2, a3⟩ := k0 (odds (seq xs)) fun n => hx _
    obtain ⟨y1, b1, b2, b3⟩ := k1 (evens (seq xs)) fun n => hx _
    obtain ⟨hl, hr⟩ : (xs.map fun q => (Fl.fin q : Fl binary32)).length = 2 * ys.length ∧ _ := h
    have hodd : odds (seq (xs.map fun q => (Fl.fin q : Fl binary32))) = fun k => Fl.fin (odds (seq xs) k) := funext fun k => seq_fin xs _
    have heven : evens (seq (xs.map fun q => (Fl.fin q : Fl binary32))) = fun k => Fl.fin (evens (seq xs) k) := funext fun k => seq_fin xs _
    have := finish ys (fun n => ∃ N, (∀ n ≥ N, |seq xs n| ≤ ε) ∧ late .down 1 N (2 * (K0 + K1) + 1) n) (by
      intro n hn
      have c := hr n hn
      rw [hodd, heven, hb1] at c
      simp only [List.length_map] at c
      rw [a1, b1] at c
      -- the same sample from two bounds
      have val : ∃ y : ℚ, seq ys n = Fl.fin y ∧ ∀ Z, quiet ≤ Z → Z ≤ 2 ^ 112 → |y0 n| ≤ Z / 2 → |y1 n| ≤ Z / 2 → |y| ≤ Z := by
        have hcomm : ∀ a b : Fl binary32, a * b = b * a := by
          intro a b
          cases a <;> cases b <;> try rfl
          exact congrArg (Fl.mk binary32) (mul_comm _ _)
        have hZX : 2 * (g * X) ≤ 2 ^ 112 := by norm_num at hgX ⊢; linarith
        have hqX : quiet ≤ 2 * (g * X) := by nlinarith
        cases sse with
        | true =>
          rw [if_pos rfl] at c
          obtain ⟨y, e1, -⟩ := half_le hqX hZX (p := y1 n) (q := y0 n) ((abs_add_le _ _).trans (by linarith [a2 n, b2 n]))
          refine ⟨y, c.trans e1, fun Z z1 z2 z3 z4 => ?_⟩
          obtain ⟨y', e1', e2'⟩ := half_le z1 z2 (p := y1 n) (q := y0 n) ((abs_add_le _ _).trans (by linarith))
          rw [e1] at e1'
          rw [Option.some.inj e1']
          exact e2'
        | false =>
          rw [if_neg (by simp), hcomm] at c
          obtain ⟨y, e1, -⟩ := half_le hqX hZX (p := y0 n) (q := y1 n) ((abs_add_le _ _).trans (by linarith [a2 n, b2 n]))
          refine ⟨y, c.trans e1, fun Z z1 z2 z3 z4 => ?_⟩
          obtain ⟨y', e1', e2'⟩ := half_le z1 z2 (p := y0 n) (q := y1 n) ((abs_add_le _ _).trans (by linarith))
          rw [e1] at e1'
          rw [Option.some.inj e1']
          exact e2'
      obtain ⟨y, e1, e2⟩ := val
      refine ⟨y, e1, ?_, ?_⟩
      · refine e2 _ ?_ ?_ ?_ ?_
        · rw [hdg]; nlinarith
        · norm_num at hX ⊢; linarith
        · rw [hdg]; linarith [a2 n]
        · rw [hdg]; linarith [b2 n]
      · rintro ⟨N, hN, hlate⟩
        have hlate : N + (2 * (K0 + K1) + 1) ≤ 2 ^ 1 * n := hlate
        have h0 := a3 ((N + 1) / 2) (fun j hj => hN (2 * j + 1) (by omega)) n (by omega)
        have h1 := b3 ((N + 1) / 2) (fun j hj => hN (2 * j) (by omega)) n (by omega)
        refine e2 _ ?_ ?_ ?_ ?_
        · rw [hdg]; nlinarith
        · have : dampGain t * ε ≤ dampGain t * X := mul_le_mul_of_nonneg_left hε (by linarith [one_le_dampGain t])
          norm_num at hX ⊢; linarith
        · rw [hdg]; linarith
        · rw [hdg]; linarith)
    obtain ⟨yq, e1, e2, e3⟩ := this
    exact ⟨yq, e1, e2, fun N hN n hl => e3 n ⟨N, hN, hl⟩⟩

theorem iir_cascade_silent {m : Mode} {sse : Bool} (ts : List (List Dec)) (ht : ∀ t ∈ ts, ∀ d ∈ t, 0 < d.toRat ∧ d.toRat ≤ 15 / 16)
    (hco : ∀ t ∈ ts, ∀ d ∈ t, CoefOk binary32 d) (hsse : sse = true → ∀ t ∈ ts, t.length % 2 = 0) (X ε : ℚ) (hq : quiet ≤ ε) (hε : ε ≤ X)
    (hX : (ts.map dampGain).prod * X ≤ 2 ^ 110) :
    ∃ K, ∀ (xs : List ℚ) (zs : List (Fl binary32)), CascadeRel (ts.map fun t => iirStageOf m sse t) (xs.map fun q => (Fl.fin q : Fl binary32)) zs →
      (∀ n, |seq xs n| ≤ X) → ∃ zq : List ℚ, zs = zq.map (fun q => Fl.fin q) ∧
        ∀ N, (∀ n ≥ N, |seq xs n| ≤ ε) → ∀ n, late m ts.length N K n → |seq zq n| ≤ (ts.map dampGain).prod * ε := by
  induction ts generalizing X ε with
  | nil =>
    refine ⟨0, fun xs zs h hx => ⟨xs, h, fun N hN n hl => ?_⟩⟩
    have hn : N ≤ n := by cases m <;> simpa [late] using hl
    simpa using hN n hn
  | cons t ts ih =>
    have hε0 : 0 < ε := quiet_pos.trans_le hq
    have hX0 : 0 < X := hε0.trans_le hε
    have hd := one_le_dampGain t
    have hP : 1 ≤ (ts.map dampGain).prod := by
      clear ih hX ht hco hsse
      induction ts with
      | nil => simp
      | cons t ts ih =>
        rw [List.map_cons, List.prod_cons]
        have := one_le_dampGain t
        nlinarith
    rw [List.map_cons, List.prod_cons] at hX
    have hdX : 0 < dampGain t * X := by positivity
    obtain ⟨K1, k1⟩ := iirStage_silent (m := m) (ht t (by simp)) (hco t (by simp)) (fun h => hsse h t (by simp)) X ε hq hε (by nlinarith)
    obtain ⟨K2, k2⟩ := ih (fun t h => ht t (by simp [h])) (fun t h => hco t (by simp [h])) (fun h t h' => hsse h t (by simp [h']))
      (dampGain t * X) (dampGain t * ε) (by nlinarith) (mul_le_mul_of_nonneg_left hε (by linarith)) (by linarith)
    refine ⟨K1 + 2 * K2 + 1, fun xs zs h hx => ?_⟩
    obtain ⟨ys, h1, h2⟩ := h
    obtain ⟨yq, rfl, y1, y2⟩ := k1 xs ys h1 hx
    obtain ⟨zq, z1, z2⟩ := k2 yq zs h2 y1
    refine ⟨zq, z1, fun N hN n hl => ?_⟩
    rw [List.map_cons, List.prod_cons]
    refine le_trans ?_ (le_of_eq (by ring : (ts.map dampGain).prod * (dampGain t * ε) = _))
    rw [List.length_cons] at hl
    cases m with
    | up =>
      refine z2 (2 * (N + K1)) (fun j hj => y2 N hN j (by show 2 ^ 1 * (N + K1) ≤ j; omega)) n ?_
      have hl : 2 ^ (ts.length + 1) * (N + (K1 + 2 * K2 + 1)) ≤ n := hl
      show 2 ^ ts.length * (2 * (N + K1) + K2) ≤ n
      refine le_trans ?_ hl
      rw [pow_succ, mul_assoc]
      exact Nat.mul_le_mul_left _ (by omega)
    | down =>
      refine z2 ((N + K1 + 1) / 2) (fun j hj => y2 N hN j (by show N + K1 ≤ 2 ^ 1 * j; omega)) n ?_
      have hl : N + (K1 + 2 * K2 + 1) ≤ 2 ^ (ts.length + 1) * n := hl
      show (N + K1 + 1) / 2 + K2 ≤ 2 ^ ts.length * n
      rw [pow_succ, mul_comm (2 ^ ts.length) 2, mul_assoc] at hl
      omega

end Panda
