import Verif.Proofs.IirRoundStage
import Verif.Proofs.SseDrift

/-!
# SSE filters with an odd number of coefficients do not overflow

The section with coefficient 1 does not forget its rounding errors, but it cannot get above `2^25` times its input: at that level adding
an input sample is rounded away.
-/

namespace Panda

open Examples

theorem rne_abs_le {x : ℚ} {N : ℕ} (h : |x| < N + 1 / 2) : |(rne x : ℚ)| ≤ N := by
  have h1 : |(rne x : ℚ)| < N + 1 := by
    have := abs_sub_abs_le_abs_sub (rne x : ℚ) x
    linarith [rne_err x]
  have h2 : |rne x| < (N : ℤ) + 1 := by exact_mod_cast h1
  exact_mod_cast Int.lt_add_one_iff.1 h2

/-- A sum that exceeds a power of two by less than half a unit in the last place is rounded to at most that power. -/
theorem rnd32_le_pow {q : ℚ} {b : ℤ} (hb : -126 ≤ b) (h : |q| < 2 ^ b + 2 ^ (b - 24)) : |rnd32 q| ≤ 2 ^ b := by
  by_cases h0 : q = 0
  · rw [h0, rnd32_zero, abs_zero]
    positivity
  have key : ∀ u : ℤ, u ≤ b → ulpExp q = u → |q| < 2 ^ b + 2 ^ u / 2 → |rnd32 q| ≤ 2 ^ b := by
    intro u hu hq hlt
    obtain ⟨m, hm⟩ := Int.eq_ofNat_of_zero_le (show 0 ≤ b - u by omega)
    have hu0 : (0 : ℚ) < 2 ^ u := by positivity
    have e : (2 : ℚ) ^ b = ((2 ^ m : ℕ) : ℚ) * 2 ^ u := by
      push_cast
      rw [← zpow_natCast, ← zpow_add₀ (by norm_num)]
      congr 1
      have : (m : ℤ) = b - u := hm.symm
      omega
    unfold rnd32
    rw [if_neg h0, hq, abs_mul, abs_of_pos hu0, e]
    refine mul_le_mul_of_nonneg_right (rne_abs_le ?_) hu0.le
    rw [abs_div, abs_of_pos hu0, div_lt_iff₀ hu0]
    rw [e] at hlt
    linarith
  rcases lt_or_ge |q| (2 ^ b) with hlt | hge
  · have h1 : ilog2 q < b := (zpow_lt_zpow_iff_right₀ (by norm_num : (1 : ℚ) < 2)).1 ((ilog2_spec h0).1.trans_lt hlt)
    refine key (ulpExp q) ?_ rfl (hlt.trans (by
      have : (0 : ℚ) < 2 ^ ulpExp q := by positivity
      linarith))
    unfold ulpExp
    omega
  · have h1 : ilog2 q = b := by
      refine ilog2_unique hge (h.trans_le ?_)
      rw [zpow_add_one₀ (by norm_num)]
      have : (2 : ℚ) ^ (b - 24) ≤ 2 ^ b := zpow_le_zpow_right₀ (by norm_num) (by omega)
      linarith
    refine key (b - 23) (by omega) ?_ (h.trans_le ?_)
    · unfold ulpExp
      omega
    · rw [show b - 24 = b - 23 - 1 by ring, zpow_sub_one₀ (by norm_num)]
      exact le_of_eq (by ring)

/-- The section with coefficient 1: inputs below `2^(b-24)`, outputs up to `2^b`. -/
theorem unit_section_le {v : ℕ → ℚ} {b : ℤ} (hb : -126 ≤ b) (hb2 : b ≤ 127) (hv : ∀ n, |v n| < 2 ^ (b - 24)) :
    ∃ w : ℕ → ℚ, (∀ n, allpass 1 (fun k => (Fl.fin (v k) : Fl binary32)) n = Fl.fin (w n)) ∧ ∀ n, |w n| ≤ 2 ^ b := by
  have fits : ∀ q : ℚ, |q| ≤ 2 ^ b → binary32.fits q = true := by
    intro q hq
    refine decide_eq_true (lt_of_le_of_lt hq ?_)
    have : (2 : ℚ) ^ b < 2 ^ (128 : ℤ) := zpow_lt_zpow_right₀ (by norm_num) (by omega)
    exact_mod_cast this
  have op : ∀ q : ℚ, |q| < 2 ^ b + 2 ^ (b - 24) → Fl.mk binary32 q = Fl.fin (rnd32 q) ∧ |rnd32 q| ≤ 2 ^ b := by
    intro q hq
    have h := rnd32_le_pow hb hq
    refine ⟨?_, h⟩
    unfold Fl.mk
    rw [show binary32.rnd q = rnd32 q from rfl, fits _ h]
    rfl
  have step : ∀ x xp w : ℚ, |x| < 2 ^ (b - 24) → |xp| < 2 ^ (b - 24) → |w| ≤ 2 ^ b →
      ∃ y : ℚ, ((Fl.fin x - Fl.fin w) * 1 + Fl.fin xp : Fl binary32) = Fl.fin y ∧ |y| ≤ 2 ^ b := by
    intro x xp w hx hxp hw
    have hp : (0 : ℚ) < 2 ^ (b - 24) := by positivity
    obtain ⟨e1, l1⟩ := op (x - w) (by linarith [abs_sub x w])
    obtain ⟨e2, l2⟩ := op (rnd32 (x - w) * 1) (by rw [mul_one]; linarith)
    obtain ⟨e3, l3⟩ := op (rnd32 (rnd32 (x - w) * 1) + xp) (by linarith [abs_add_le (rnd32 (rnd32 (x - w) * 1)) xp])
    refine ⟨_, ?_, l3⟩
    rw [← e3]
    show ((Fl.mk binary32 (x - w)) * 1 + Fl.fin xp : Fl binary32) = _
    rw [e1]
    show (Fl.mk binary32 (rnd32 (x - w) * 1) + Fl.fin xp : Fl binary32) = _
    rw [e2]
    rfl
  have all : ∀ n, ∃ y : ℚ, allpass 1 (fun k => (Fl.fin (v k) : Fl binary32)) n = Fl.fin y ∧ |y| ≤ 2 ^ b := by
    intro n
    induction n with
    | zero => exact step (v 0) 0 0 (hv 0) (by rw [abs_zero]; positivity) (by rw [abs_zero]; positivity)
    | succ n ih =>
      obtain ⟨w, h1, h2⟩ := ih
      rw [allpass, h1]
      exact step (v (n + 1)) (v n) w (hv _) (hv _) h2
  exact ⟨fun n => (all n).choose, fun n => (all n).choose_spec.1, fun n => (all n).choose_spec.2⟩

/-- Samples up to `2^e`: a stage yields finite samples up to `2^(e + 28)`. -/
theorem iirStage_finite {m : Mode} {sse : Bool} {t : List Dec} {g w : ℕ → ℚ} (ht : StageBnd t g w)
    (hgw : ∀ b < 2, g b + w b < 8) (hco : ∀ d ∈ t, CoefOk binary32 d) {e : ℤ} (he : 0 ≤ e) (he2 : e ≤ 94)
    {xs : List ℚ} {ys : List (Fl binary32)} (h : Stage.Rel (iirStageOf m sse t) (xs.map fun q => (Fl.fin q : Fl binary32)) ys)
    (hx : ∀ n, |seq xs n| ≤ 2 ^ e) :
    ∃ yq : List ℚ, ys = yq.map (fun q => Fl.fin q) ∧ ∀ n, |seq yq n| ≤ 2 ^ (e + 28) := by
  have hpe : (1 : ℚ) ≤ 2 ^ e := one_le_zpow₀ (by norm_num) he
  have hpe2 : (2 : ℚ) ^ e ≤ 2 ^ (94 : ℤ) := zpow_le_zpow_right₀ (by norm_num) he2
  have hacc := binary32_acc (Ω := 2 ^ 127) (by norm_num)
  have hη : (2⁻¹ ^ 150 : ℚ) ≤ τ32 * 2 ^ e := by
    refine le_trans ?_ (mul_le_mul_of_nonneg_left hpe (by norm_num [τ32]))
    norm_num [τ32]
  have hΩ : (2 : ℚ) ^ 15 * 2 ^ e ≤ 2 ^ 127 := by
    refine (mul_le_mul_of_nonneg_left hpe2 (by positivity)).trans ?_
    norm_num
  have e28 : (2 : ℚ) ^ (e + 28) = 2 ^ 28 * 2 ^ e := by rw [zpow_add₀ (by norm_num)]; norm_num; ring
  have e27 : (2 : ℚ) ^ (e + 27) = 2 ^ 27 * 2 ^ e := by rw [zpow_add₀ (by norm_num)]; norm_num; ring
  have e3 : (2 : ℚ) ^ (e + 28 - 24 - 1) = 8 * 2 ^ e := by
    rw [show e + 28 - 24 - 1 = e + 3 by ring, zpow_add₀ (by norm_num)]; norm_num; ring
  -- the two branches
  have br : ∀ b < 2, ∀ x : ℕ → ℚ, (∀ n, |x n| ≤ 2 ^ e) → ∃ y : ℕ → ℚ,
      (∀ n, branchOut t.length (seq (t.map fun d => (Sample.ofDouble d.toRat : Fl binary32))) b (fun k => Fl.fin (x k)) n = Fl.fin (y n)) ∧
      ∀ n, |y n| < 8 * 2 ^ e := by
    intro b hb x hx
    obtain ⟨y, h1, h2, -⟩ := branch_round (Fl.iirArith hacc).toSecArith ht hco hb hη hΩ (xt := fun k => Fl.fin (x k)) (fun _ => rfl) hx
    refine ⟨y, h1, fun n => (h2 n).trans_lt ?_⟩
    exact mul_lt_mul_of_pos_right (hgw b hb) (by positivity)
  have br1 : ∀ x : ℕ → ℚ, (∀ n, |x n| ≤ 2 ^ e) → ∃ y : ℕ → ℚ,
      (∀ n, iirBranch1 sse t.length (seq (t.map fun d => (Sample.ofDouble d.toRat : Fl binary32))) (fun k => Fl.fin (x k)) n = Fl.fin (y n)) ∧
      ∀ n, |y n| ≤ 2 ^ 27 * 2 ^ e := by
    intro x hx
    obtain ⟨y, h1, h2⟩ := br 1 (by omega) x hx
    unfold iirBranch1
    split
    · rw [show branchOut t.length (seq (t.map fun d => (Sample.ofDouble d.toRat : Fl binary32))) 1 (fun k => Fl.fin (x k)) =
        fun k => Fl.fin (y k) from funext h1]
      obtain ⟨w, w1, w2⟩ := unit_section_le (v := y) (b := e + 27) (by omega) (by omega) (fun n => by
        rw [show e + 27 - 24 = e + 28 - 24 - 1 by ring, e3]
        exact h2 n)
      rw [e27] at w2
      exact ⟨w, w1, w2⟩
    · refine ⟨y, h1, fun n => (h2 n).le.trans (mul_le_mul_of_nonneg_right (by norm_num) (by positivity))⟩
  have finish : ∀ ys : List (Fl binary32), (∀ n < ys.length, ∃ y : ℚ, seq ys n = Fl.fin y ∧ |y| ≤ 2 ^ 28 * 2 ^ e) →
      ∃ yq : List ℚ, ys = yq.map (fun q => Fl.fin q) ∧ ∀ n, |seq yq n| ≤ 2 ^ (e + 28) := by
    intro ys hy
    obtain ⟨yq, rfl⟩ := exists_fin_list ys fun n hn => ⟨_, (hy n hn).choose_spec.1⟩
    refine ⟨yq, rfl, fun n => ?_⟩
    rw [e28]
    rcases Nat.lt_or_ge n yq.length with hn | hn
    · obtain ⟨y, h1, h2⟩ := hy n (by simpa using hn)
      rw [seq_fin] at h1
      rw [Option.some.inj h1]
      exact h2
    · rw [seq_ge hn, abs_zero]
      positivity
  have h8 : (8 : ℚ) * 2 ^ e ≤ 2 ^ 28 * 2 ^ e := mul_le_mul_of_nonneg_right (by norm_num) (by positivity)
  have h27 : (2 : ℚ) ^ 27 * 2 ^ e ≤ 2 ^ 28 * 2 ^ e := mul_le_mul_of_nonneg_right (by norm_num) (by positivity)
  cases m with
  | up =>
    obtain ⟨y0, a1, a2⟩ := br 0 (by omega) _ hx
    obtain ⟨y1, b1, b2⟩ := br1 _ hx
    obtain ⟨hl, hr⟩ : ys.length = 2 * (xs.map fun q => (Fl.fin q : Fl binary32)).length ∧ _ := h
    have hin : seq (xs.map fun q => (Fl.fin q : Fl binary32)) = fun k => Fl.fin (seq xs k) := funext (seq_fin xs)
    refine finish ys fun n hn => ?_
    obtain ⟨c1, c2⟩ := hr (n / 2) (by omega)
    rw [hin, List.length_map] at c1 c2
    rcases Nat.mod_two_eq_zero_or_one n with h0 | h0
    · rw [show 2 * (n / 2) = n by omega, a1] at c1
      exact ⟨_, c1, (a2 _).le.trans h8⟩
    · rw [show 2 * (n / 2) + 1 = n by omega, b1] at c2
      exact ⟨_, c2, (b2 _).trans h27⟩
  | down =>
    obtain ⟨y0, a1, a2⟩ := br 0 (by omega) (odds (seq xs)) fun n => hx _
    obtain ⟨y1, b1, b2⟩ := br1 (evens (seq xs)) fun n => hx _
    obtain ⟨hl, hr⟩ : (xs.map fun q => (Fl.fin q : Fl binary32)).length = 2 * ys.length ∧ _ := h
    have hodd : odds (seq (xs.map fun q => (Fl.fin q : Fl binary32))) = fun k => Fl.fin (odds (seq xs) k) := funext fun k => seq_fin xs _
    have heven : evens (seq (xs.map fun q => (Fl.fin q : Fl binary32))) = fun k => Fl.fin (evens (seq xs) k) := funext fun k => seq_fin xs _
    -- half the sum, with samples relative to `2^(e+17)`
    have half : ∀ p q : ℚ, |p + q| ≤ 2 ^ 27 * 2 ^ e + 8 * 2 ^ e → ∃ y, (Fl.fin p + Fl.fin q) * Sample.half = (Fl.fin y : Fl binary32) ∧ |y| ≤ 2 ^ 28 * 2 ^ e := by
      intro p q hpq
      have h17 : (2 : ℚ) ^ 17 * 2 ^ e = 2 ^ (e + 17) := by rw [zpow_add₀ (by norm_num)]; norm_num; ring
      obtain ⟨y, y1, y2⟩ := half_round hacc (X0 := 2 ^ 17 * 2 ^ e) (hη.trans (mul_le_mul_of_nonneg_left (by linarith) (by norm_num [τ32])))
        (by positivity) (by
          have := mul_le_mul_of_nonneg_left hpe2 (by positivity : (0 : ℚ) ≤ 2 ^ 15 * 2 ^ 17)
          refine le_trans (le_of_eq (by ring)) (this.trans ?_)
          norm_num) (B := 2 ^ 11) le_rfl (p := p) (q := q) (hpq.trans (by
          refine le_trans (le_of_eq (by ring : _ = (2 ^ 27 + 8) * (2 : ℚ) ^ e)) (le_trans (mul_le_mul_of_nonneg_right (by norm_num : (2 : ℚ) ^ 27 + 8 ≤ 2 ^ 28) (by positivity)) (le_of_eq (by ring)))))
      refine ⟨y, y1, ?_⟩
      have hc : (u32r * (1 + u32r) * 2 ^ 11 + 2 * τ32) * (2 ^ 17 * (2 : ℚ) ^ e) ≤ 1 * (2 ^ 17 * 2 ^ e) :=
        mul_le_mul_of_nonneg_right (by norm_num [u32r, τ32]) (by positivity)
      have h3 : |y| ≤ |y - (p + q) / 2| + |p + q| / 2 := by
        have h4 : |(p + q) / 2| = |p + q| / 2 := by rw [abs_div, abs_two]
        have h5 := abs_sub_abs_le_abs_sub y ((p + q) / 2)
        linarith
      generalize (2 : ℚ) ^ e = E at *
      norm_num at hpq hc y2 h3 ⊢
      linarith
    refine finish ys fun n hn => ?_
    have c := hr n hn
    rw [hodd, heven, List.length_map, a1, b1] at c
    cases sse with
    | true =>
      rw [if_pos rfl] at c
      obtain ⟨y, e1, e2⟩ := half (y1 n) (y0 n) ((abs_add_le _ _).trans (add_le_add (b2 n) (a2 n).le))
      exact ⟨y, c.trans e1, e2⟩
    | false =>
      obtain ⟨y, e1, e2⟩ := half (y0 n) (y1 n) ((abs_add_le _ _).trans ((add_comm _ _).le.trans (add_le_add (b2 n) (a2 n).le)))
      refine ⟨y, ?_, e2⟩
      rw [if_neg (by simp)] at c
      have hcomm : ∀ a b : Fl binary32, a * b = b * a := by
        intro a b
        cases a <;> cases b <;> try rfl
        exact congrArg (Fl.mk binary32) (mul_comm _ _)
      rw [← e1, hcomm]
      exact c

theorem iir_cascade_finite {m : Mode} {sse : Bool} {p : ℕ} (hp : p ∈ [8, 12, 16, 20, 24]) (ks : List ℕ) (hks : ∀ k ∈ ks, k ∈ [2, 4, 8])
    (hgw : ∀ k ∈ ks, ∀ b < 2, iirG k p b + iirW k p b < 8) (hco : ∀ k ∈ ks, ∀ d ∈ iirDecs k p, CoefOk binary32 d)
    {e : ℤ} (he : 0 ≤ e) (he2 : e + 28 * ks.length ≤ 122) {xs : List ℚ} {zs : List (Fl binary32)}
    (h : CascadeRel (ks.map fun k => iirStageOf m sse (iirDecs k p)) (xs.map fun q => (Fl.fin q : Fl binary32)) zs)
    (hx : ∀ n, |seq xs n| ≤ 2 ^ e) : ∃ zq : List ℚ, zs = zq.map (fun q => Fl.fin q) ∧ ∀ n, |seq zq n| ≤ 2 ^ (e + 28 * ks.length) := by
  induction ks generalizing e xs with
  | nil => exact ⟨xs, h, by simpa using hx⟩
  | cons k ks ih =>
    obtain ⟨ys, h1, h2⟩ := h
    rw [List.length_cons] at he2
    push_cast at he2
    obtain ⟨yq, rfl, y1⟩ := iirStage_finite (stageBnd_tab (hks k (by simp)) hp) (hgw k (by simp)) (hco k (by simp)) he (by omega) h1 hx
    obtain ⟨zq, z1, z2⟩ := ih (fun k hk => hks k (by simp [hk])) (fun k hk => hgw k (by simp [hk])) (fun k hk => hco k (by simp [hk]))
      (e := e + 28) (by omega) (by omega) h2 y1
    refine ⟨zq, z1, fun n => (z2 n).trans (le_of_eq ?_)⟩
    congr 1
    rw [List.length_cons]
    push_cast
    ring

end Panda
