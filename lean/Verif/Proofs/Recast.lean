import Verif.Proofs.IeeeFlush
import Verif.Proofs.Scale
import Verif.Proofs.Homog

/-!
# The same session in another arithmetic
-/

namespace Panda

/-- 24 bits like `float`, but any exponent: the arithmetic of pandaresampler.cc:515 as long as nothing underflows or overflows. -/
def float24 : Format := { rnd := rndU, fits := fun _ => true }

theorem rndU_eq_rnd24 (q : ℚ) : rndU q = rnd24 q := by
  have h2 : expG 23 (ilog2 q - 23) q = ilog2 q - 23 := max_eq_left (by push_cast; exact le_rfl)
  unfold rndU rndG rnd24
  rw [h2]

theorem mk_binary32_eq (q : ℚ) (h1 : 2⁻¹ ^ 126 ≤ |q|) (h2 : |rnd32 q| < 2 ^ 128) :
    (Fl.mk binary32 q : Option ℚ) = (Fl.mk float24 q : Option ℚ) := by
  have h0 : q ≠ 0 := by
    rintro rfl
    rw [abs_zero] at h1
    exact absurd h1 (not_le.2 (by positivity))
  have h4 : (2 : ℚ) ^ (-126 : ℤ) < 2 ^ (ilog2 q + 1) := by
    refine lt_of_le_of_lt ?_ (ilog2_spec h0).2
    rw [show (2 : ℚ) ^ (-126 : ℤ) = 2⁻¹ ^ 126 by norm_num]
    exact h1
  have h5 := (zpow_lt_zpow_iff_right₀ (by norm_num : (1 : ℚ) < 2)).1 h4
  have e : rnd32 q = rndU q := rndU_eq (q := q) (emin := -149) (by omega)
  have e1 : Fl.mk binary32 q = Fl.fin (rnd32 q) := if_pos (decide_eq_true h2)
  have e2 : Fl.mk float24 q = Fl.fin (rndU q) := if_pos rfl
  rw [e1, e2, e]
  rfl

/-- `float`, but a result below `2^-125` that is not zero is "not a number" (which is contagious): the arithmetic of pandaresampler.cc:515
with underflow as an error. -/
def normal32 : Format := { rnd := rndU, fits := fun q => decide (q = 0 ∨ 2⁻¹ ^ 125 ≤ |q| ∧ |q| < 2 ^ 128) }

/-- The same memory, read with another arithmetic. -/
def Buf.recast {S T : Format} (b : Buf (Fl S)) : Buf (Fl T) := { addr := b.addr, len := b.len, get := fun i => (b.get i : Option ℚ) }

/-- The same operation, with another arithmetic. -/
def Op.recast {S T : Format} : Op (Fl S) → Op (Fl T)
  | .process c => .process { st := { block16 := c.st.block16, tmpAddr := c.st.tmpAddr, tmp2Addr := c.st.tmp2Addr,
                                     junk := fun i => (c.st.junk i : Option ℚ) },
                             input := c.input.recast, n := c.n, output := c.output.recast }
  | .reset => .reset

/-- The same number, unless the left one is "not a number". -/
def Same {S T : Format} (a : Fl S) (b : Fl T) : Prop := ∀ q : ℚ, (a : Option ℚ) = some q → (b : Option ℚ) = some q

theorem Same.op {S T : Format} (hm : ∀ q, Same (Fl.mk S q) (Fl.mk T q)) (f : ℚ → ℚ → ℚ) {a a' : Fl S} {b b' : Fl T} (h : Same a b)
    (h' : Same a' b') : Same (Fl.op f a a') (Fl.op f b b') := by
  cases a with
  | none => intro q e; cases e
  | some x =>
    cases a' with
    | none => intro q e; cases e
    | some y =>
      have e1 := h x rfl
      have e2 := h' y rfl
      cases e1
      cases e2
      exact hm (f x y)

theorem Same.compat {S T : Format} (hm : ∀ q, Same (Fl.mk S q) (Fl.mk T q)) : Compat (Same (S := S) (T := T)) where
  zero := fun _ => id
  one := fun _ => id
  add := Same.op hm _
  sub := Same.op hm _
  mul := Same.op hm _
  half := fun _ => id
  ofDouble := hm

theorem rndU_normal {q : ℚ} (h : 2⁻¹ ^ 125 ≤ |rndU q|) : 2⁻¹ ^ 126 ≤ |q| := by
  have h1 := rounds_dist (rndU_rounds (q := q) le_rfl) ⟨0, _, by norm_num, le_rfl, (by simp : (0 : ℚ) = ((0 : ℤ) : ℚ) * 2 ^ (ilog2 q - 23))⟩
  rw [zero_sub, abs_neg, abs_abs] at h1
  have h2 := abs_sub_abs_le_abs_sub (rndU q) q
  have h3 : (2⁻¹ : ℚ) ^ 125 = 2 * 2⁻¹ ^ 126 := by norm_num
  linarith

theorem rndU_ne_zero {q : ℚ} (h0 : q ≠ 0) : rndU q ≠ 0 := by
  intro h
  have h1 := rounds_ge (rndU_rounds (q := q) le_rfl) ⟨2 ^ 23, ilog2 q - 23, by norm_num, le_rfl, (by
    rw [zpow_sub₀ (by norm_num)]
    norm_num
    ring : (2 : ℚ) ^ ilog2 q = ((2 ^ 23 : ℤ) : ℚ) * 2 ^ (ilog2 q - 23))⟩ (ilog2_spec h0).1
  rw [h, abs_zero] at h1
  exact absurd h1 (not_le.2 (by positivity))

theorem same_float24 (q : ℚ) : Same (Fl.mk normal32 q) (Fl.mk float24 q) := by
  intro x e
  have e2 : Fl.mk float24 q = Fl.fin (rndU q) := if_pos rfl
  rw [e2]
  by_cases h : normal32.fits (normal32.rnd q) = true
  · exact (if_pos h : Fl.mk normal32 q = _).symm.trans e
  · have := (if_neg h : Fl.mk normal32 q = _).symm.trans e
    cases this

theorem same_binary32 (q : ℚ) : Same (Fl.mk normal32 q) (Fl.mk binary32 q) := by
  intro x e
  rcases eq_or_ne q 0 with rfl | h0
  · have e1 : Fl.mk binary32 0 = Fl.fin 0 := by decide +kernel
    have e2 : Fl.mk normal32 0 = Fl.fin 0 := by decide +kernel
    rw [e1]
    rw [e2] at e
    exact e
  · by_cases h : normal32.fits (normal32.rnd q) = true
    · have e3 := same_float24 q x e
      rcases of_decide_eq_true h with h1 | ⟨h1, h2⟩
      · exact absurd h1 (rndU_ne_zero h0)
      · have h3 := rndU_normal h1
        rw [mk_binary32_eq q h3]
        · exact e3
        · have h4 : (2 : ℚ) ^ (-126 : ℤ) < 2 ^ (ilog2 q + 1) := by
            refine lt_of_le_of_lt ?_ (ilog2_spec h0).2
            rw [show (2 : ℚ) ^ (-126 : ℤ) = 2⁻¹ ^ 126 by norm_num]
            exact h3
          have h5 := (zpow_lt_zpow_iff_right₀ (by norm_num : (1 : ℚ) < 2)).1 h4
          rw [show rnd32 q = rndU q from rndU_eq (q := q) (emin := -149) (by omega)]
          exact h2
    · have := (if_neg h : Fl.mk normal32 q = _).symm.trans e
      cases this

theorem same_ftz (q : ℚ) : Same (Fl.mk normal32 q) (Fl.mk binary32ftz q) := by
  intro x e
  have e1 := same_float24 q x e
  have e1 : rndU q = x := Option.some.inj ((if_pos rfl : Fl.mk float24 q = _).symm.trans e1)
  by_cases h : normal32.fits (normal32.rnd q) = true
  · have h2 : rndFtz q = x := by
      rw [rndFtz_eq, e1]
      rcases of_decide_eq_true h with h1 | ⟨h1, -⟩
      · have h1 : rndU q = 0 := h1
        rw [e1] at h1
        rw [h1]
        norm_num
      · have h1 : 2⁻¹ ^ 125 ≤ |rndU q| := h1
        rw [e1] at h1
        have h3 : (2⁻¹ : ℚ) ^ 125 = 2 * 2⁻¹ ^ 126 := by norm_num
        have h4 : (0 : ℚ) < 2⁻¹ ^ 126 := by positivity
        exact if_neg (by linarith)
    have h5 : |x| < 2 ^ 128 := by
      rcases of_decide_eq_true h with h1 | ⟨-, h1⟩
      · have h1 : rndU q = 0 := h1
        rw [← e1, h1]
        norm_num
      · rw [← e1]
        exact h1
    have h6 : binary32ftz.fits (binary32ftz.rnd q) = true := by
      show decide (|rndFtz q| < 2 ^ 128) = true
      rw [h2]
      exact decide_eq_true h5
    exact (if_pos h6 : Fl.mk binary32ftz q = _).trans (congrArg some h2)
  · have := (if_neg h : Fl.mk normal32 q = _).symm.trans e
    cases this

theorem same_fz (q : ℚ) : Same (Fl.mk normal32 q) (Fl.mk binary32fz q) := by
  intro x e
  have e0 := same_binary32 q x e
  rcases eq_or_ne q 0 with rfl | h0
  · have e1 : Fl.mk binary32fz 0 = Fl.fin 0 := by decide +kernel
    have e2 : Fl.mk normal32 0 = Fl.fin 0 := by decide +kernel
    rw [e1]
    rw [e2] at e
    exact e
  · by_cases h : normal32.fits (normal32.rnd q) = true
    · rcases of_decide_eq_true h with h1 | ⟨h1, -⟩
      · exact absurd h1 (rndU_ne_zero h0)
      · have h3 := rndU_normal h1
        have h4 : rndFz q = rnd32 q := if_neg (not_lt.2 h3)
        have h5 : Fl.mk binary32fz q = Fl.mk binary32 q := by
          unfold Fl.mk
          show (if binary32.fits (rndFz q) = true then some (rndFz q) else none) = _
          rw [h4]
          rfl
        rw [h5]
        exact e0
    · have := (if_neg h : Fl.mk normal32 q = _).symm.trans e
      cases this

theorem recast_rel {S T : Format} (ops : List (Op (Fl binary32))) :
    ListRel (OpRel (Same (S := S) (T := T))) (ops.map Op.recast) (ops.map Op.recast) := by
  induction ops with
  | nil => exact .nil
  | cons o l ih =>
    refine .cons ?_ ih
    cases o with
    | process c => exact ⟨⟨rfl, rfl, rfl, fun _ _ => id⟩, ⟨rfl, rfl, fun _ _ _ => id⟩, rfl, ⟨rfl, rfl, fun _ _ _ => id⟩⟩
    | reset => trivial

theorem recast_ok {T : Format} {cfg : Config} {ops : List (Op (Fl binary32))} (hc : ∀ op ∈ ops, cfg.OpOk op) :
    ∀ op ∈ (ops.map Op.recast : List (Op (Fl T))), cfg.OpOk op := by
  intro op hop
  obtain ⟨o, ho, rfl⟩ := List.mem_map.1 hop
  have := hc o ho
  cases o with
  | process c => exact ⟨this.1, this.2, this.3, this.4, this.5, this.6, this.7⟩
  | reset => trivial

theorem recast_self (ops : List (Op (Fl binary32))) : (ops.map Op.recast : List (Op (Fl binary32))) = ops := by
  refine List.map_id'' ?_ ops
  intro o
  cases o <;> rfl

theorem recast_fed {T : Format} (ops : List (Op (Fl binary32))) :
    fed (ops.map Op.recast : List (Op (Fl T))) = (fed ops : List (Option ℚ)) := by
  unfold fed
  suffices ∀ acc : List (Option ℚ), ((ops.map Op.recast : List (Op (Fl T))).foldl fedStep acc : List (Option ℚ)) =
      ops.foldl (fedStep (F := Fl binary32)) acc from this []
  induction ops with
  | nil => intro acc; rfl
  | cons o l ih =>
    intro acc
    cases o with
    | process c => exact ih _
    | reset => exact ih _

theorem recast_shape {T : Format} {l m : List (Op (Fl binary32))} (h : SameShape l m) :
    SameShape (l.map Op.recast : List (Op (Fl T))) (m.map Op.recast : List (Op (Fl T))) := by
  induction l generalizing m with
  | nil =>
    cases m with
    | nil => trivial
    | cons _ _ => exact h.elim
  | cons o l ih =>
    cases m with
    | nil => cases o <;> exact h.elim
    | cons o' m =>
      cases o <;> cases o' <;> first | exact h.elim | skip
      · exact ⟨h.1, ih h.2⟩
      · exact ih h

theorem rel_seq {S T : Format} {l : List (Fl S)} {m : List (Fl T)} (h : ListRel Same l m) (n : ℕ) : Same (seq l n) (seq m n) := by
  induction h generalizing n with
  | nil => exact fun _ => id
  | cons h1 _ ih =>
    cases n with
    | zero => exact h1
    | succ n => exact ih n

theorem session_recast {S T : Format} (hm : ∀ q, Same (Fl.mk S q) (Fl.mk T q)) {cfg : Config} (hv : cfg.Valid)
    {ops : List (Op (Fl binary32))} (hc : ∀ op ∈ ops, cfg.OpOk op) {r : Resampler (Fl S)} {os : List (Option (Buf (Fl S)))}
    {r' : Resampler (Fl T)} {os' : List (Option (Buf (Fl T)))}
    (h : cfg.session (ops.map Op.recast) = .ok (r, os)) (h' : cfg.session (ops.map Op.recast) = .ok (r', os')) (n : ℕ) :
    Same (seq (cfg.produced (ops.map Op.recast) os) n) (seq (cfg.produced (ops.map Op.recast) os') n) := by
  obtain ⟨_, _, h1, hf, -⟩ := Config.session_spec hv (recast_ok (T := S) hc)
  rw [h] at h1
  cases h1
  have hr := Config.session_rel (Same.compat hm) cfg (recast_rel ops)
  rw [h, h'] at hr
  exact rel_seq (produced_rel (recast_rel ops) hr.2 hf (recast_ok hc)) n

end Panda
