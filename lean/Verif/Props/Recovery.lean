import Verif.Props.Rounding
import Verif.Proofs.Local
import Verif.Proofs.IirRoundStage
import Verif.Proofs.Subnormal
import Verif.Props.Ringing

/-!
# Silence, infinities and NaNs (C70, C71)

C70: after enough silence the output is exactly zero. C71: the effect of a sample that is not finite ends.
Both hold for FIR resamplers and are false for IIR resamplers. Examples are at the end of the file.
-/

namespace Panda

open Examples

/-- Samples beyond the window of the filter that the vectorised FIR code multiplies with zero, in input samples. -/
def Config.slack (cfg : Config) : ℕ :=
  if cfg.vec then match cfg.mode with
    | .up => 11
    | .down => 84
  else 0

/-- Is input sample `i` one of those output sample `n` of a FIR resampler is computed from? -/
def Config.InReach (cfg : Config) (n i : ℕ) : Prop :=
  match cfg.mode with
  | .up => n / cfg.ratio ≤ i + (cfg.memory + cfg.slack) ∧ i ≤ n / cfg.ratio + cfg.slack
  | .down => cfg.ratio * n ≤ i + (cfg.memory + cfg.slack) ∧ i < cfg.ratio * (n + 1) + cfg.slack

private theorem reaches : ∀ m ∈ [Mode.up, Mode.down], ∀ r ∈ [1, 2, 4, 8], ∀ p ∈ [1, 8, 12, 16, 20, 24], ∀ v ∈ [true, false],
    reachBack m v (cfg m r p v .fir).tables ≤ (cfg m r p v .fir).memory + (cfg m r p v .fir).slack ∧
    reachAhead m v (cfg m r p v .fir).tables ≤ (cfg m r p v .fir).slack ∧ 2 ^ (cfg m r p v .fir).tables.length = r ∧
    (cfg m r p v .fir).vec = v ∧ ∀ t ∈ (cfg m r p v .fir).tables, 2 ≤ t.length := by decide +kernel

/-- Input samples out of reach can be replaced. -/
private theorem replace {F : Type} [Zero F] [One F] [Add F] [Sub F] [Mul F] [Sample F] {cfg : Config} (hv : cfg.Valid) (hf : cfg.filter = .fir)
    {xs zs : List F} (h : CascadeRel cfg.stages xs zs) {xs' : List F} (hl : xs'.length = xs.length) :
    ∃ zs', CascadeRel cfg.stages xs' zs' ∧ zs'.length = zs.length ∧ ∀ n, (∀ i, cfg.InReach n i → seq xs i = seq xs' i) → seq zs' n = seq zs n := by
  obtain ⟨r1, r2, r3, r4, r5⟩ := reaches cfg.mode (by cases cfg.mode <;> simp) cfg.ratio hv.ratio cfg.precision hv.precision cfg.vec
    (by cases cfg.vec <;> simp)
  have e1 : (Examples.cfg cfg.mode cfg.ratio cfg.precision cfg.vec .fir).tables = cfg.tables := rfl
  have e2 : (Examples.cfg cfg.mode cfg.ratio cfg.precision cfg.vec .fir).memory = cfg.memory := rfl
  have e3 : (Examples.cfg cfg.mode cfg.ratio cfg.precision cfg.vec .fir).slack = cfg.slack := by
    unfold Config.slack
    rw [r4]
    rfl
  rw [e1] at r1 r2 r3 r5
  rw [e3] at r1 r2
  rw [e2] at r1
  rw [Config.stages_eq_tables hv hf] at h ⊢
  cases hm : cfg.mode with
  | up =>
    rw [hm] at h r1 r2
    obtain ⟨zs', a1, a2, a3⟩ := cascade_local_up cfg.tables r5 h hl
    refine ⟨zs', a1, a2, fun n he => a3 n fun i h1 h2 => he i ?_⟩
    rw [r3] at h1 h2
    unfold Config.InReach
    rw [hm]
    exact ⟨by omega, by omega⟩
  | down =>
    rw [hm] at h r1 r2
    obtain ⟨zs', a1, a2, a3⟩ := cascade_local_down cfg.tables r5 h hl
    refine ⟨zs', a1, a2, fun n he => a3 n fun i h1 h2 => he i ?_⟩
    rw [r3] at h1 h2
    unfold Config.InReach
    rw [hm]
    exact ⟨by omega, by omega⟩

/-! ## FIR: silence -/

section zero

variable {S : Format} (h0 : S.rnd 0 = 0) (h1 : S.fits 0 = true)
include h0 h1

private theorem zero_mul' (q : ℚ) : (0 : Fl S) * Fl.fin q = 0 := by
  show Fl.mk S (0 * q) = _
  rw [zero_mul, Fl.mk, h0, h1]
  rfl

private theorem zero_add' : (0 : Fl S) + 0 = 0 := by
  show Fl.mk S (0 + 0) = _
  rw [add_zero, Fl.mk, h0, h1]
  rfl

private theorem firVal_zero {vec : Bool} {t : ℕ → ℚ} {O N m : ℕ} {X : ℕ → Fl S} (hX : ∀ i, X i = 0) {v : Fl S}
    (h : FirVal vec (fun i => Fl.fin (t i)) O X N m v) : v = 0 := by
  rcases h with rfl | ⟨-, k, -, -, -, rfl⟩
  · generalize O = n
    induction n with
    | zero => rfl
    | succ n ih => rw [firScalar, ih, hX, zero_mul' h0 h1, zero_add' h0 h1]
  · have lane : ∀ r n, firLane (fun i => X (m - k + i)) (fun i => Fl.fin (t i)) O k r n = 0 := by
      have tap : ∀ j, ∃ q, delayedTap (fun i => (Fl.fin (t i) : Fl S)) O k j = Fl.fin q := by
        intro j
        unfold delayedTap
        split
        · exact ⟨_, rfl⟩
        · exact ⟨0, rfl⟩
      intro r n
      induction n with
      | zero =>
        obtain ⟨q, hq⟩ := tap r
        rw [firLane, hX, hq, zero_mul' h0 h1]
      | succ n ih =>
        obtain ⟨q, hq⟩ := tap (4 * (n + 1) + r)
        rw [firLane, ih, hX, hq, zero_mul' h0 h1, zero_add' h0 h1]
    unfold firVector
    rw [lane, lane, lane, lane, zero_add' h0 h1, zero_add' h0 h1, zero_add' h0 h1]

omit h0 h1 in
private theorem padded_zero {O : ℕ} {x : ℕ → Fl S} (hx : ∀ i, x i = 0) (j : ℕ) : padded O x j = 0 := by
  unfold padded
  split
  · rfl
  · exact hx _

private theorem cascade_zero {m : Mode} {vec : Bool} (ts : List (List Dec)) (ht : ∀ t ∈ ts, TapsOk S m t) {xs zs : List (Fl S)}
    (h : CascadeRel (ts.map (firStage m vec)) xs zs) (hx : ∀ i, seq xs i = 0) : ∀ i, seq zs i = 0 := by
  induction ts generalizing xs with
  | nil =>
    have h : zs = xs := h
    rwa [h]
  | cons t ts ih =>
    obtain ⟨ys, a, b⟩ := h
    refine ih (fun t h => ht t (by simp [h])) b fun n => ?_
    have htap : seq (t.map fun d => (Sample.ofDouble (d.toRat * m.scale) : Fl S)) = fun i => Fl.fin (seq (storedTaps S m t) i) := by
      rw [(ht t (by simp)).taps]
      exact funext (seq_fin _)
    rcases Nat.lt_or_ge n ys.length with hn | hn
    · cases m with
      | up =>
        obtain ⟨c1, c2⟩ : ys.length = 2 * xs.length ∧ _ := a
        obtain ⟨c3, c4⟩ := c2 (n / 2) (by omega)
        rcases Nat.mod_two_eq_zero_or_one n with h2 | h2
        · rw [show 2 * (n / 2) = n by omega, show seq (t.map fun d => (Sample.ofDouble (d.toRat * 2) : Fl S)) = _ from htap] at c3
          exact firVal_zero h0 h1 (padded_zero hx) c3
        · rw [show 2 * (n / 2) + 1 = n by omega] at c4
          rw [c4]
          exact padded_zero hx _
      | down =>
        obtain ⟨c1, c2⟩ : xs.length = 2 * ys.length ∧ _ := a
        obtain ⟨v, c3, c4⟩ := c2 n hn
        rw [show seq (t.map fun d => (Sample.ofDouble (d.toRat * 1) : Fl S)) = _ from htap] at c3
        rw [c4, firVal_zero h0 h1 (padded_zero fun i => hx _) c3, padded_zero (x := odds (seq xs)) fun i => hx _]
        have : (Sample.half * 0 : Fl S) = 0 := by
          rw [Fl.mul_comm]
          exact zero_mul' h0 h1 (1 / 2)
        rw [this, zero_add' h0 h1]
    · exact seq_past hn

end zero

/-- **C70**, FIR resamplers in binary32 (with SSE or without, any block sizes): if all input samples an output sample is computed from are
zero, the output sample is exactly zero. The other input samples may be anything, infinities and NaNs included. -/
theorem C70_fir_silent (cfg : Config) (hv : cfg.Valid) (hf : cfg.filter = .fir)
    (ops : List (Op F32)) (hc : ∀ op ∈ ops, cfg.OpOk op) (r : Resampler F32) (os : List (Option (Buf F32)))
    (h : cfg.session ops = .ok (r, os)) (n : ℕ) (hx : ∀ i, cfg.InReach n i → seq (fed ops) i = 0) :
    seq (cfg.produced ops os) n = 0 := by
  have hrel := Config.session_rel' hv hc h
  obtain ⟨zs, h1, -, h2⟩ := replace hv hf hrel (xs' := List.replicate (fed ops).length 0) (by simp)
  have hz : ∀ i, seq (List.replicate (fed ops).length (0 : F32)) i = 0 := by
    intro i
    simp only [seq, List.getD_eq_getElem?_getD, List.getElem?_replicate]
    split <;> rfl
  rw [← h2 n fun i hi => by rw [hx i hi, hz]]
  rw [Config.stages_eq_tables hv hf] at h1
  exact cascade_zero rfl (by decide +kernel) cfg.tables (fun t ht => (cfg.tables_ok32 hv t ht).2.2) h1 hz n

/-! ## FIR: infinities and NaNs -/

/-- **C71**, FIR resamplers in binary32 (with SSE or without, any block sizes): if all input samples an output sample is computed from are
finite and at most `M`, the output sample is finite and as exact as C11 promises. The other input samples may be anything,
infinities and NaNs included: their effect ends after `memory + slack` samples. -/
theorem C71_fir_recovers (cfg : Config) (hv : cfg.Valid) (hf : cfg.filter = .fir)
    (ops : List (Op F32)) (hc : ∀ op ∈ ops, cfg.OpOk op) (r : Resampler F32) (os : List (Option (Buf F32)))
    (h : cfg.session ops = .ok (r, os)) (M : ℚ) (hM0 : 0 ≤ M) (hM : M ≤ 2 ^ 100) (n : ℕ) (hn : n < (cfg.produced ops os).length)
    (hx : ∀ i, cfg.InReach n i → ∃ q, seq (fed ops) i = Fl.fin q ∧ |q| ≤ M) :
    ∃ y, seq (cfg.produced ops os) n = Fl.fin y ∧ |y| ≤ (gainMilli cfg.mode cfg.ratio cfg.precision : ℚ) / 1000 * M + 2⁻¹ ^ 140 ∧
      |y - cfg.op (fun i => (seq (fed ops) i).val) n| ≤ (rndNano cfg.mode cfg.ratio cfg.precision : ℚ) / 10 ^ 9 * M + 2⁻¹ ^ 140 := by
  classical
  have hrel := Config.session_rel' hv hc h
  set xs' : List F32 := (List.range (fed ops).length).map fun i => if cfg.InReach n i then seq (fed ops) i else 0 with hxs
  have hs : ∀ i, seq xs' i = if cfg.InReach n i then seq (fed ops) i else 0 := by
    intro i
    rcases Nat.lt_or_ge i (fed ops).length with hi | hi
    · rw [hxs]
      simp [seq, List.getD_eq_getElem?_getD, hi]
    · rw [seq_past (by simpa [hxs] using hi), seq_past hi, ite_self]
  obtain ⟨zs, h1, hl, h2⟩ := replace hv hf hrel (xs' := xs') (by simp [hxs])
  obtain ⟨y, y1, y2, y3⟩ := cfg.rel_round32 hv hf h1 M hM (by
    intro v hv
    obtain ⟨i, -, rfl⟩ := List.mem_map.1 hv
    split
    · exact hx i (by assumption)
    · exact ⟨0, rfl, by simpa using hM0⟩) n (by omega)
  rw [h2 n fun i hi => by rw [hs, if_pos hi]] at y1
  refine ⟨y, y1, y2, ?_⟩
  have hop : cfg.op (fun i => (seq xs' i).val) n = cfg.op (fun i => (seq (fed ops) i).val) n := by
    cases hm : cfg.mode with
    | up =>
      refine Config.op_local_up hv hf hm fun i a b => ?_
      rw [hs, if_pos]
      unfold Config.InReach
      rw [hm]
      exact ⟨by omega, by omega⟩
    | down =>
      refine Config.op_local_down hv hf hm fun i a b => ?_
      rw [hs, if_pos]
      unfold Config.InReach
      rw [hm]
      exact ⟨by omega, by omega⟩
  rwa [hop] at y3

/-! ## IIR: infinities and NaNs -/

/-- Not finite: infinite or NaN. -/
def Fl.bad {S : Format} : Fl S := none

section bad

variable {S : Format}

private theorem bad_left (f : ℚ → ℚ → ℚ) (b : Fl S) : Fl.op f Fl.bad b = Fl.bad := by cases b <;> rfl

private theorem bad_right (f : ℚ → ℚ → ℚ) (a : Fl S) : Fl.op f a Fl.bad = Fl.bad := by cases a <;> rfl

private theorem bad_add (b : Fl S) : Fl.bad + b = Fl.bad := bad_left _ b

private theorem add_bad (a : Fl S) : a + Fl.bad = Fl.bad := bad_right _ a

private theorem bad_mul (b : Fl S) : Fl.bad * b = Fl.bad := bad_left _ b

private theorem mul_bad (a : Fl S) : a * Fl.bad = Fl.bad := bad_right _ a

private theorem bad_sub (b : Fl S) : Fl.bad - b = Fl.bad := bad_left _ b

private theorem sub_bad (a : Fl S) : a - Fl.bad = Fl.bad := bad_right _ a

private theorem allpass_at {a : Fl S} {x : ℕ → Fl S} {N : ℕ} (h : x N = Fl.bad) : allpass a x N = Fl.bad := by
  cases N with
  | zero => rw [allpass, h, bad_sub, bad_mul, bad_add]
  | succ N => rw [allpass, h, bad_sub, bad_mul, bad_add]

private theorem allpass_from {a : Fl S} {x : ℕ → Fl S} {N : ℕ} (h : x N = Fl.bad) : ∀ n ≥ N, allpass a x n = Fl.bad := by
  intro n hn
  induction n, hn using Nat.le_induction with
  | base => exact allpass_at h
  | succ n _ ih => rw [allpass, ih, sub_bad, bad_mul, bad_add]

private theorem branch_at {c : ℕ → Fl S} {b : ℕ} {x : ℕ → Fl S} {N : ℕ} (h : x N = Fl.bad) (j : ℕ) : branch c b x j N = Fl.bad := by
  induction j with
  | zero => exact h
  | succ j ih => exact allpass_at ih

private theorem branch1_at {sse : Bool} {nc : ℕ} {c : ℕ → Fl S} {x : ℕ → Fl S} {N : ℕ} (h : x N = Fl.bad) : iirBranch1 sse nc c x N = Fl.bad := by
  unfold iirBranch1
  split
  · exact allpass_at (branch_at h _)
  · exact branch_at h _

private theorem branch_from {c : ℕ → Fl S} {b : ℕ} {x : ℕ → Fl S} {N j : ℕ} (hj : 0 < j) (h : x N = Fl.bad) : ∀ n ≥ N, branch c b x j n = Fl.bad := by
  obtain ⟨j, rfl⟩ := Nat.exists_eq_succ_of_ne_zero hj.ne'
  exact allpass_from (branch_at h j)

private theorem branch1_from {sse : Bool} {nc : ℕ} (hn : 2 ≤ nc) {c : ℕ → Fl S} {x : ℕ → Fl S} {N : ℕ} (h : x N = Fl.bad) :
    ∀ n ≥ N, iirBranch1 sse nc c x n = Fl.bad := by
  have hb : 0 < branchLen nc 1 := by unfold branchLen; omega
  unfold iirBranch1
  split
  · exact allpass_from (branch_at h _)
  · exact branch_from hb h

/-- The outputs that depend on input number `N`. -/
private def after (m : Mode) (k N n : ℕ) : Prop :=
  match m with
  | .up => k * N ≤ n
  | .down => N < k * (n + 1)

private theorem stage_from {m : Mode} {sse : Bool} {t : List Dec} (ht : 2 ≤ t.length) {xs ys : List (Fl S)}
    (h : Stage.Rel (iirStageOf m sse t) xs ys) {N : ℕ} (hN : seq xs N = Fl.bad) : ∀ n < ys.length, after m 2 N n → seq ys n = Fl.bad := by
  intro n hn ha
  have hb : 0 < branchLen t.length 0 := by unfold branchLen; omega
  cases m with
  | up =>
    obtain ⟨c1, c2⟩ : ys.length = 2 * xs.length ∧ _ := h
    obtain ⟨c3, c4⟩ := c2 (n / 2) (by omega)
    have ha : 2 * N ≤ n := ha
    rw [List.length_map] at c3 c4
    rcases Nat.mod_two_eq_zero_or_one n with h2 | h2
    · rw [show 2 * (n / 2) = n by omega] at c3
      rw [c3]
      exact branch_from hb hN _ (by omega)
    · rw [show 2 * (n / 2) + 1 = n by omega] at c4
      rw [c4]
      exact branch1_from ht hN _ (by omega)
  | down =>
    obtain ⟨c1, c2⟩ : xs.length = 2 * ys.length ∧ _ := h
    have c3 := c2 n hn
    have ha : N < 2 * (n + 1) := ha
    rw [List.length_map] at c3
    rcases Nat.mod_two_eq_zero_or_one N with h2 | h2
    · have : evens (seq xs) (N / 2) = Fl.bad := by
        show seq xs (2 * (N / 2)) = _
        rw [show 2 * (N / 2) = N by omega, hN]
      rw [branch1_from ht this n (by omega), bad_add, add_bad, bad_mul, mul_bad, ite_self] at c3
      exact c3
    · have : odds (seq xs) (N / 2) = Fl.bad := by
        show seq xs (2 * (N / 2) + 1) = _
        rw [show 2 * (N / 2) + 1 = N by omega, hN]
      rw [show branchOut t.length _ 0 (odds (seq xs)) n = Fl.bad from branch_from hb this n (by omega), bad_add, add_bad, bad_mul, mul_bad,
        ite_self] at c3
      exact c3

private theorem stage_at {m : Mode} {sse : Bool} {t : List Dec} {xs ys : List (Fl S)} (h : Stage.Rel (iirStageOf m sse t) xs ys) {N : ℕ} :
    match m with
    | .up => ∀ n < ys.length, seq xs (n / 2) = Fl.bad → seq ys n = Fl.bad
    | .down => N / 2 < ys.length → seq xs N = Fl.bad → seq ys (N / 2) = Fl.bad := by
  cases m with
  | up =>
    intro n hn hx
    obtain ⟨c1, c2⟩ : ys.length = 2 * xs.length ∧ _ := h
    obtain ⟨c3, c4⟩ := c2 (n / 2) (by omega)
    rcases Nat.mod_two_eq_zero_or_one n with h2 | h2
    · rw [show 2 * (n / 2) = n by omega] at c3
      rw [c3]
      exact branch_at hx _
    · rw [show 2 * (n / 2) + 1 = n by omega] at c4
      rw [c4]
      exact branch1_at hx
  | down =>
    intro hn hN
    obtain ⟨c1, c2⟩ : xs.length = 2 * ys.length ∧ _ := h
    have c3 := c2 (N / 2) hn
    rcases Nat.mod_two_eq_zero_or_one N with h2 | h2
    · have : evens (seq xs) (N / 2) = Fl.bad := by
        show seq xs (2 * (N / 2)) = _
        rw [show 2 * (N / 2) = N by omega, hN]
      rw [branch1_at this, bad_add, add_bad, bad_mul, mul_bad, ite_self] at c3
      exact c3
    · have : odds (seq xs) (N / 2) = Fl.bad := by
        show seq xs (2 * (N / 2) + 1) = _
        rw [show 2 * (N / 2) + 1 = N by omega, hN]
      rw [show branchOut _ _ 0 (odds (seq xs)) (N / 2) = Fl.bad from branch_at this _, bad_add, add_bad, bad_mul, mul_bad, ite_self] at c3
      exact c3

private theorem bad_lt {xs : List (Fl S)} {N : ℕ} (h : seq xs N = Fl.bad) : N < xs.length := by
  by_contra hc
  rw [seq_past (by omega)] at h
  exact absurd h (by rintro ⟨⟩)

private theorem up_from {sse : Bool} (ts : List (List Dec)) {xs zs : List (Fl S)} (h : CascadeRel (ts.map (iirStageOf .up sse)) xs zs) {A : ℕ}
    (hA : ∀ n < xs.length, A ≤ n → seq xs n = Fl.bad) : ∀ n < zs.length, 2 ^ ts.length * A ≤ n → seq zs n = Fl.bad := by
  induction ts generalizing xs A with
  | nil =>
    have h : zs = xs := h
    subst h
    simpa using hA
  | cons t ts ih =>
    obtain ⟨ys, h1, h2⟩ := h
    have hl : ys.length = 2 * xs.length := h1.1
    intro n hn hle
    refine ih h2 (A := 2 * A) (fun j hj hA2 => ?_) n hn ?_
    · exact stage_at (m := .up) h1 (N := 0) j hj (hA _ (by omega) (by omega))
    · rw [List.length_cons, pow_succ, mul_assoc] at hle
      exact hle

private theorem down_from {sse : Bool} (ts : List (List Dec)) (hne : ts ≠ []) (ht : 2 ≤ (ts.getLast hne).length) {xs zs : List (Fl S)}
    (h : CascadeRel (ts.map (iirStageOf .down sse)) xs zs) {N : ℕ} (hN : seq xs N = Fl.bad) :
    ∀ n < zs.length, N < 2 ^ ts.length * (n + 1) → seq zs n = Fl.bad := by
  induction ts generalizing xs N with
  | nil => exact absurd rfl hne
  | cons t ts ih =>
    obtain ⟨ys, h1, h2⟩ := h
    cases ts with
    | nil =>
      have h2 : zs = ys := h2
      subst h2
      simpa [after] using stage_from (m := .down) ht h1 hN
    | cons t' ts =>
      intro n hn hle
      have hl : xs.length = 2 * ys.length := h1.1
      have hlt := bad_lt hN
      refine ih (by simp) (by simpa using ht) h2 (N := N / 2) (stage_at (m := .down) h1 (N := N) (by omega) hN) n hn ?_
      rw [List.length_cons, pow_succ, mul_comm _ 2, mul_assoc] at hle
      omega

end bad

private theorem iirSizes : ∀ p ∈ [8, 12, 16, 20, 24], 2 ≤ (iirDecs 2 p).length := by decide +kernel

/-- **C71 is false for IIR resamplers** (with SSE or without, every ratio but 1, every precision): one input sample that is not finite,
number `N`, and every output sample from then on is not finite, whatever the input after it and however long. Only `reset()` helps. -/
theorem C71_false_iir (cfg : Config) (hv : cfg.Valid) (hf : cfg.filter = .iir) (h1 : cfg.ratio ≠ 1)
    (ops : List (Op F32)) (hc : ∀ op ∈ ops, cfg.OpOk op) (r : Resampler F32) (os : List (Option (Buf F32)))
    (h : cfg.session ops = .ok (r, os)) (N : ℕ) (hN : seq (fed ops) N = Fl.bad) :
    ∀ n < (cfg.produced ops os).length,
      (match cfg.mode with
        | .up => cfg.ratio * N ≤ n
        | .down => N < cfg.ratio * (n + 1)) →
      seq (cfg.produced ops os) n = Fl.bad := by
  have hp : cfg.precision ∈ [8, 12, 16, 20, 24] := by
    have h1 := hv.precision
    have h2 := hv.iir hf
    simp at h1 ⊢
    omega
  have hrel := Config.session_rel' hv hc h
  rw [Config.stages_eq_iirTabs hv hf] at hrel
  have e : cfg.rates.map (fun k => iirStageOf (F := F32) cfg.mode cfg.iirSse (iirDecs k cfg.precision)) =
      (cfg.rates.map fun k => iirDecs k cfg.precision).map (iirStageOf cfg.mode cfg.iirSse) := by rw [List.map_map]; rfl
  rw [e] at hrel
  have hr := hv.ratio
  simp at hr
  have h2 := iirSizes _ hp
  cases hm : cfg.mode with
  | up =>
    rw [hm] at hrel
    have : ∃ l : List ℕ, cfg.rates = 2 :: l ∧ 2 ^ (l.length + 1) = cfg.ratio := by
      unfold Config.rates
      rw [hm]
      rcases hr with hr | hr | hr | hr
      · exact absurd hr h1
      all_goals rw [hr]; exact ⟨_, rfl, rfl⟩
    obtain ⟨l, e1, e2⟩ := this
    rw [e1] at hrel
    obtain ⟨ys, a1, a2⟩ := hrel
    intro n hn hle
    have hle : cfg.ratio * N ≤ n := hle
    refine up_from _ a2 (A := 2 * N) (stage_from (m := .up) h2 a1 hN) n hn ?_
    rw [List.length_map, ← mul_assoc, ← pow_succ, e2]
    exact hle
  | down =>
    rw [hm] at hrel
    have : ∃ l : List ℕ, cfg.rates = l ++ [2] ∧ 2 ^ (l.length + 1) = cfg.ratio := by
      unfold Config.rates
      rw [hm]
      rcases hr with hr | hr | hr | hr
      · exact absurd hr h1
      · rw [hr]; exact ⟨[], rfl, rfl⟩
      · rw [hr]; exact ⟨[4], rfl, rfl⟩
      · rw [hr]; exact ⟨[8, 4], rfl, rfl⟩
    obtain ⟨l, e1, e2⟩ := this
    rw [e1] at hrel
    intro n hn hle
    have hle : N < cfg.ratio * (n + 1) := hle
    refine down_from _ (by simp) (by simpa using h2) hrel hN n hn ?_
    rw [List.length_map, List.length_append, List.length_singleton, e2]
    exact hle

/-! ## IIR: silence -/

/-- Size of the output of branch 0 after an impulse and enough silence, in units of `2^-149`. -/
def restUnits : ℕ → ℕ
  | 8 => 2
  | 12 => 3
  | 16 => 1
  | 20 => 2
  | _ => 7

/-- The first input sample from which on it has that size. -/
def restFrom : ℕ → ℕ
  | 8 => 457
  | 12 => 723
  | 16 => 277
  | 20 => 371
  | _ => 1246

private theorem rest0 {p : ℕ} (hp : p ∈ [8, 12, 16, 20, 24]) {x : ℕ → F32} (h0 : x 0 = 1) (hx : ∀ n, x (n + 1) = 0) {n : ℕ} (hn : restFrom p ≤ n) :
    branchOut (iirDecs 2 p).length (seq ((iirDecs 2 p).map fun d => (Sample.ofDouble d.toRat : F32))) 0 x n = Fl.fin (restUnits p * 2 ^ (-149 : ℤ)) ∨
    branchOut (iirDecs 2 p).length (seq ((iirDecs 2 p).map fun d => (Sample.ofDouble d.toRat : F32))) 0 x n = Fl.fin (-(restUnits p * 2 ^ (-149 : ℤ))) := by
  rw [branchOut_eq_apChain, ← restCoefs_eq p hp 0 (by decide)]
  simp at hp
  rcases hp with rfl | rfl | rfl | rfl | rfl
  · exact (restCert_out rest8 h0 hx n hn).symm
  · exact restCert_out rest12 h0 hx n hn
  · exact restCert_out rest16 h0 hx n hn
  · exact (restCert_out rest20 h0 hx n hn).symm
  · exact (restCert_out rest24 h0 hx n hn).symm

private theorem seq_impulse (Z : ℕ) : seq ((1 : F32) :: List.replicate Z 0) 0 = 1 ∧ ∀ n, seq ((1 : F32) :: List.replicate Z 0) (n + 1) = 0 := by
  refine ⟨rfl, fun n => ?_⟩
  simp only [seq, List.getD_eq_getElem?_getD, List.getElem?_cons_succ, List.getElem?_replicate]
  split <;> rfl

private theorem rates2 {cfg : Config} (hr : cfg.ratio = 2) : cfg.rates = [2] := by
  unfold Config.rates
  rw [hr]
  cases cfg.mode <;> rfl

/-- **C70 is false for IIR resamplers**, upsampling by 2 (with SSE or without, every precision). binary32, an impulse followed by `Z`
zeros: every second output sample, up to the end, however large `Z` is, is not zero but a subnormal number of constant size
(operations with subnormal numbers are slow on many processors). -/
theorem C70_false_subnormals_up (cfg : Config) (hv : cfg.Valid) (hf : cfg.filter = .iir) (hm : cfg.mode = .up) (hr : cfg.ratio = 2)
    (ops : List (Op F32)) (hc : ∀ op ∈ ops, cfg.OpOk op) (r : Resampler F32) (os : List (Option (Buf F32)))
    (h : cfg.session ops = .ok (r, os)) (Z : ℕ) (hx : fed ops = 1 :: List.replicate Z 0) (n : ℕ) (hn : restFrom cfg.precision ≤ n) (hnZ : n ≤ Z) :
    ∃ y, seq (cfg.produced ops os) (2 * n) = Fl.fin y ∧ |y| = restUnits cfg.precision * 2 ^ (-149 : ℤ) := by
  have hp : cfg.precision ∈ [8, 12, 16, 20, 24] := by
    have h1 := hv.precision
    have h2 := hv.iir hf
    simp at h1 ⊢
    omega
  have hrel := Config.session_rel' hv hc h
  rw [Config.stages_eq_iirTabs hv hf, rates2 hr, hm, hx] at hrel
  obtain ⟨ys, h1, h2⟩ := hrel
  have h2 : cfg.produced ops os = ys := h2
  have h1 := (h1.2 n (by simp; omega)).1
  rw [List.length_map] at h1
  rw [h2, h1]
  obtain ⟨i0, i1⟩ := seq_impulse Z
  have hpos : (0 : ℚ) ≤ restUnits cfg.precision * 2 ^ (-149 : ℤ) := by positivity
  rcases rest0 hp i0 i1 hn with e | e
  · exact ⟨_, e, abs_of_nonneg hpos⟩
  · exact ⟨_, e, by rw [abs_neg, abs_of_nonneg hpos]⟩

/-- C70_false_subnormals_up for real sessions of any length. -/
example (Z : ℕ) (hZ : Z < 2 ^ 20) (p : ℕ) (hp : p ∈ [8, 12, 16, 20, 24]) (sse : Bool) (n : ℕ) (hn : restFrom p ≤ n) (hnZ : n ≤ Z) :
    ∃ q, (cfg .up 2 p sse .iir).session [Op.process (impulseCall (Z + 1))] = .ok q ∧
      ∃ y, seq ((cfg .up 2 p sse .iir).produced [Op.process (impulseCall (Z + 1))] q.2) (2 * n) = Fl.fin y ∧ |y| = restUnits p * 2 ^ (-149 : ℤ) := by
  have hv : (cfg .up 2 p sse .iir).Valid := ⟨by simp [cfg], by simp [cfg] at hp ⊢; omega, by intro _; simp [cfg] at hp ⊢; omega⟩
  have hc : ∀ op ∈ [Op.process (impulseCall (Z + 1))], (cfg .up 2 p sse .iir).OpOk op := by
    intro op hop
    simp only [List.mem_cons, List.not_mem_nil, or_false] at hop
    subst hop
    exact ⟨by show Z + 1 < _; omega, le_rfl, by show (Z + 1) * 2 ≤ 2 * (Z + 1); omega, by simp [cfg], by simp [cfg],
      fun _ _ => Or.inr (Nat.succ_pos Z), by simp [cfg]⟩
  obtain ⟨r, os, h, -⟩ := C04_output_frame _ hv _ hc
  refine ⟨_, h, C70_false_subnormals_up _ hv rfl rfl rfl _ hc r os h Z ?_ n hn hnZ⟩
  show (impulseCall (Z + 1)).samples = _
  unfold Call.samples impulseCall
  simp only [List.range_succ_eq_map, List.map_cons, List.map_map]
  refine congrArg₂ _ rfl ?_
  rw [List.eq_replicate_iff]
  simp

/-- Where the impulse is in the next theorem. -/
def restPos : ℕ → ℕ
  | 16 => 0
  | _ => 1

/-- Size of the output of a downsampler after an impulse and enough silence, in units of `2^-149`. -/
def restUnitsDown : ℕ → ℕ
  | 8 => 1
  | 12 => 2
  | 16 => 2
  | 20 => 1
  | _ => 4

/-- The first output sample from which on it has that size. -/
def restFromDown : ℕ → ℕ
  | 8 => 457
  | 12 => 723
  | 16 => 854
  | 20 => 371
  | _ => 1246

private theorem rest1 {x : ℕ → F32} (h0 : x 0 = 1) (hx : ∀ n, x (n + 1) = 0) {n : ℕ} (hn : 854 ≤ n) :
    branchOut (iirDecs 2 16).length (seq ((iirDecs 2 16).map fun d => (Sample.ofDouble d.toRat : F32))) 1 x n = Fl.fin (4 * 2 ^ (-149 : ℤ)) ∨
    branchOut (iirDecs 2 16).length (seq ((iirDecs 2 16).map fun d => (Sample.ofDouble d.toRat : F32))) 1 x n = Fl.fin (-(4 * 2 ^ (-149 : ℤ))) := by
  rw [branchOut_eq_apChain, ← restCoefs_eq 16 (by decide) 1 (by decide)]
  exact (restCert_out rest16' h0 hx n hn).symm

private theorem allpass_zero {a : ℚ} {x : ℕ → F32} (hx : ∀ n, x n = 0) (n : ℕ) : allpass (Fl.fin a) x n = 0 := by
  have z : ((0 : F32) - 0) * Fl.fin a + 0 = 0 := by
    rw [show ((0 : F32) - 0) = 0 by decide +kernel, zero_mul' rfl (by decide +kernel), zero_add' rfl (by decide +kernel)]
  induction n with
  | zero => rw [allpass, hx, z]
  | succ n ih => rw [allpass, hx, hx, ih, z]

private theorem apChain_zero (as : List ℚ) {x : ℕ → F32} (hx : ∀ n, x n = 0) (n : ℕ) : apChain (as.map fun a => (Fl.fin a : F32)) x n = 0 := by
  induction as generalizing x with
  | nil => exact hx n
  | cons a as ih => exact ih (allpass_zero hx)

private theorem coefsFin : ∀ p ∈ [8, 12, 16, 20, 24], ∀ b ∈ [0, 1], ((branchDecs (iirDecs 2 p) b).map fun d => (Sample.ofDouble d.toRat : F32)) =
    ((branchDecs (iirDecs 2 p) b).map fun d => rnd32 d.toRat).map fun a => Fl.fin a := by decide +kernel

private theorem zero0 {p : ℕ} (hp : p ∈ [8, 12, 16, 20, 24]) {b : ℕ} (hb : b ∈ [0, 1]) {x : ℕ → F32} (hx : ∀ n, x n = 0) (n : ℕ) :
    branchOut (iirDecs 2 p).length (seq ((iirDecs 2 p).map fun d => (Sample.ofDouble d.toRat : F32))) b x n = 0 := by
  rw [branchOut_eq_apChain, coefsFin p hp b hb]
  exact apChain_zero _ hx n

private theorem zero1 {p : ℕ} (hp : p ∈ [8, 12, 16, 20, 24]) {sse : Bool} {x : ℕ → F32} (hx : ∀ n, x n = 0) (n : ℕ) :
    iirBranch1 sse (iirDecs 2 p).length (seq ((iirDecs 2 p).map fun d => (Sample.ofDouble d.toRat : F32))) x n = 0 := by
  have h := zero0 hp (b := 1) (by decide) hx
  unfold iirBranch1
  split
  · exact allpass_zero (a := 1) h n
  · exact h n

private theorem halves : ∀ p ∈ [8, 12, 20, 24], ∀ s ∈ [(1 : ℚ), -1],
    ((Fl.fin (s * (restUnits p * 2 ^ (-149 : ℤ))) : F32) + 0) * Sample.half = Fl.fin (s * (restUnitsDown p * 2 ^ (-149 : ℤ))) ∧
    Sample.half * ((Fl.fin (s * (restUnits p * 2 ^ (-149 : ℤ))) : F32) + 0) = Fl.fin (s * (restUnitsDown p * 2 ^ (-149 : ℤ))) ∧
    (0 + (Fl.fin (s * (restUnits p * 2 ^ (-149 : ℤ))) : F32)) * Sample.half = Fl.fin (s * (restUnitsDown p * 2 ^ (-149 : ℤ))) := by decide +kernel

private theorem halves16 : ∀ s ∈ [(1 : ℚ), -1],
    ((Fl.fin (s * (4 * 2 ^ (-149 : ℤ))) : F32) + 0) * Sample.half = Fl.fin (s * (2 * 2 ^ (-149 : ℤ))) ∧
    Sample.half * (0 + (Fl.fin (s * (4 * 2 ^ (-149 : ℤ))) : F32)) = Fl.fin (s * (2 * 2 ^ (-149 : ℤ))) := by decide +kernel

private theorem abs_units (u : ℕ) {s : ℚ} (hs : s ∈ [(1 : ℚ), -1]) : |s * (u * 2 ^ (-149 : ℤ))| = u * 2 ^ (-149 : ℤ) := by
  have h0 : (0 : ℚ) ≤ u * 2 ^ (-149 : ℤ) := by positivity
  simp at hs
  rcases hs with rfl | rfl
  · rw [one_mul, abs_of_nonneg h0]
  · rw [neg_one_mul, abs_neg, abs_of_nonneg h0]

/-- **C70 is false for IIR resamplers**, downsampling by 2 (with SSE or without, every precision): after an impulse and any number of zeros
all output samples are subnormal numbers of constant size, not zero. -/
theorem C70_false_subnormals_down (cfg : Config) (hv : cfg.Valid) (hf : cfg.filter = .iir) (hm : cfg.mode = .down) (hr : cfg.ratio = 2)
    (ops : List (Op F32)) (hc : ∀ op ∈ ops, cfg.OpOk op) (r : Resampler F32) (os : List (Option (Buf F32)))
    (h : cfg.session ops = .ok (r, os)) (Z : ℕ) (hx : fed ops = List.replicate (restPos cfg.precision) 0 ++ 1 :: List.replicate Z 0)
    (n : ℕ) (hn : restFromDown cfg.precision ≤ n) (hnl : n < (cfg.produced ops os).length) :
    ∃ y, seq (cfg.produced ops os) n = Fl.fin y ∧ |y| = restUnitsDown cfg.precision * 2 ^ (-149 : ℤ) := by
  have hp : cfg.precision ∈ [8, 12, 16, 20, 24] := by
    have h1 := hv.precision
    have h2 := hv.iir hf
    simp at h1 ⊢
    omega
  have hrel := Config.session_rel' hv hc h
  rw [Config.stages_eq_iirTabs hv hf, rates2 hr, hm, hx] at hrel
  obtain ⟨ys, h1, h2⟩ := hrel
  have h2 : cfg.produced ops os = ys := h2
  rw [h2] at hnl ⊢
  have h1 := h1.2 n hnl
  rw [List.length_map] at h1
  rw [h1]
  obtain ⟨i0, i1⟩ := seq_impulse Z
  by_cases h16 : cfg.precision = 16
  · rw [h16] at hn ⊢
    have ex : List.replicate (restPos 16) (0 : F32) ++ 1 :: List.replicate Z 0 = 1 :: List.replicate Z 0 := rfl
    rw [ex]
    have z0 := zero0 (p := 16) (by decide) (b := 0) (by decide) (x := odds (seq ((1 : F32) :: List.replicate Z 0))) (fun n => i1 _) n
    have r1 := rest1 (x := evens (seq ((1 : F32) :: List.replicate Z 0))) i0 (fun n => i1 _) (n := n) hn
    have hb : iirBranch1 cfg.iirSse (iirDecs 2 16).length (seq ((iirDecs 2 16).map fun d => (Sample.ofDouble d.toRat : F32)))
        (evens (seq ((1 : F32) :: List.replicate Z 0))) n = branchOut (iirDecs 2 16).length (seq ((iirDecs 2 16).map fun d => (Sample.ofDouble d.toRat : F32))) 1
        (evens (seq ((1 : F32) :: List.replicate Z 0))) n := by
      unfold iirBranch1
      rw [if_neg]
      rintro ⟨-, c⟩
      exact absurd c (by decide)
    have : ∃ s ∈ [(1 : ℚ), -1], branchOut (iirDecs 2 16).length (seq ((iirDecs 2 16).map fun d => (Sample.ofDouble d.toRat : F32))) 1
        (evens (seq ((1 : F32) :: List.replicate Z 0))) n = Fl.fin (s * (4 * 2 ^ (-149 : ℤ))) := by
      rcases r1 with e | e
      · exact ⟨1, by simp, by rw [e, one_mul]⟩
      · exact ⟨-1, by simp, by rw [e, neg_one_mul]⟩
    obtain ⟨s, hs, e⟩ := this
    obtain ⟨k1, k2⟩ := halves16 s hs
    refine ⟨s * ((2 : ℕ) * 2 ^ (-149 : ℤ)), ?_, abs_units 2 hs⟩
    rw [hb, e, z0]
    cases cfg.iirSse
    · exact k2
    · exact k1
  · have hp4 : cfg.precision ∈ [8, 12, 20, 24] := by
      simp at hp ⊢
      omega
    have epos : restPos cfg.precision = 1 := by
      simp at hp4
      rcases hp4 with e | e | e | e <;> rw [e] <;> rfl
    have efrom : restFromDown cfg.precision = restFrom cfg.precision := by
      simp at hp4
      rcases hp4 with e | e | e | e <;> rw [e] <;> rfl
    rw [efrom] at hn
    rw [epos, show List.replicate 1 (0 : F32) ++ 1 :: List.replicate Z 0 = 0 :: 1 :: List.replicate Z 0 from rfl]
    have hev : ∀ n, evens (seq ((0 : F32) :: 1 :: List.replicate Z 0)) n = 0 := by
      intro n
      cases n with
      | zero => rfl
      | succ n => exact i1 (2 * n)
    have hod : ∀ n, odds (seq ((0 : F32) :: 1 :: List.replicate Z 0)) n = seq ((1 : F32) :: List.replicate Z 0) (2 * n) := fun n => rfl
    have z1 := zero1 hp (sse := cfg.iirSse) hev n
    have r0 := rest0 hp (x := odds (seq ((0 : F32) :: 1 :: List.replicate Z 0))) (by rw [hod]; exact i0) (fun n => by rw [hod]; exact i1 _) hn
    have : ∃ s ∈ [(1 : ℚ), -1], branchOut (iirDecs 2 cfg.precision).length (seq ((iirDecs 2 cfg.precision).map fun d => (Sample.ofDouble d.toRat : F32))) 0
        (odds (seq ((0 : F32) :: 1 :: List.replicate Z 0))) n = Fl.fin (s * (restUnits cfg.precision * 2 ^ (-149 : ℤ))) := by
      rcases r0 with e | e
      · exact ⟨1, by simp, by rw [e, one_mul]⟩
      · exact ⟨-1, by simp, by rw [e, neg_one_mul]⟩
    obtain ⟨s, hs, e⟩ := this
    obtain ⟨k1, k2, k3⟩ := halves _ hp4 s hs
    refine ⟨_, ?_, abs_units _ hs⟩
    rw [z1, e]
    cases cfg.iirSse
    · exact k2
    · exact k3

/-- A call with an impulse at position `q`, for downsampling by 2. -/
def impulseDownCall (q n : ℕ) : Call F32 :=
  { st := { block16 := 5, tmpAddr := 4, tmp2Addr := 8, junk := fun _ => 0 },
    input := { addr := 4, len := n + 2, get := fun i => if i = q then 1 else 0 }, n := n, output := { addr := 100, len := n, get := fun _ => 0 } }

/-- C70_false_subnormals_down for a real session: 24 bits with SSE, one impulse and 9998 zeros. -/
example : ∃ q, (cfg .down 2 24 true .iir).session [Op.process (impulseDownCall 1 10000)] = .ok q ∧ ∀ n < 5000, 1246 ≤ n →
      ∃ y, seq ((cfg .down 2 24 true .iir).produced [Op.process (impulseDownCall 1 10000)] q.2) n = Fl.fin y ∧ |y| = 4 * 2 ^ (-149 : ℤ) := by
  have hv : (cfg .down 2 24 true .iir).Valid := ⟨by decide, by decide, by decide⟩
  have hc : ∀ op ∈ [Op.process (impulseDownCall 1 10000)], (cfg .down 2 24 true .iir).OpOk op := by
    intro op hop
    simp only [List.mem_cons, List.not_mem_nil, or_false] at hop
    subst hop
    exact ⟨by decide, by decide, by decide, by decide, by decide, by decide, by decide⟩
  obtain ⟨r, os, h, -⟩ := C04_output_frame _ hv _ hc
  have hl := Config.produced_length hv (Config.session_rel' hv hc h)
  have hfed : fed [Op.process (impulseDownCall 1 10000)] = 0 :: 1 :: List.replicate 9998 0 := by
    have : ∀ Z, fed [Op.process (impulseDownCall 1 (Z + 2))] = 0 :: 1 :: List.replicate Z 0 := by
      intro Z
      show (impulseDownCall 1 (Z + 2)).samples = 0 :: 1 :: List.replicate Z 0
      unfold Call.samples impulseDownCall
      simp only [List.range_succ_eq_map, List.map_cons, List.map_map]
      refine congrArg₂ _ rfl (congrArg₂ _ rfl ?_)
      rw [List.eq_replicate_iff]
      simp
    exact this 9998
  refine ⟨_, h, fun n hn hle => C70_false_subnormals_down _ hv rfl rfl rfl _ hc r os h 9998 hfed n hle ?_⟩
  rw [hl, hfed, List.length_cons, List.length_cons, List.length_replicate]
  exact hn

/-! ## Examples: one infinite or NaN sample -/

/-- A call with one sample that is not finite, number `j`. The others are `v`. -/
def poisonCall (j n m : ℕ) (v : ℚ) : Call F32 :=
  { st := { block16 := 5, tmpAddr := 4, tmp2Addr := 8, junk := fun _ => 0 },
    input := { addr := 4, len := n + 2, get := fun i => if i = j then Fl.bad else Fl.fin v }, n := n, output := { addr := 100, len := m, get := fun _ => 0 } }

private theorem fed_poison (j n m : ℕ) (v : ℚ) (i : ℕ) (hi : i < n) :
    seq (fed [Op.process (poisonCall j n m v)]) i = if i = j then Fl.bad else Fl.fin v := by
  show seq (poisonCall j n m v).samples i = _
  unfold Call.samples poisonCall
  simp [seq, List.getD_eq_getElem?_getD, hi]

private theorem fed_poison_past (j n m : ℕ) (v : ℚ) (i : ℕ) (hi : n ≤ i) : seq (fed [Op.process (poisonCall j n m v)]) i = 0 := by
  refine seq_past ?_
  show (poisonCall j n m v).samples.length ≤ i
  unfold Call.samples poisonCall
  simpa using hi

private theorem fed_poison_length (j n m : ℕ) (v : ℚ) : (fed [Op.process (poisonCall j n m v)]).length = n := by
  show (poisonCall j n m v).samples.length = n
  unfold Call.samples poisonCall
  simp

private theorem poison_ok {m : Mode} {p : ℕ} {f : Filter} {j : ℕ} {v : ℚ} (hm : m = .up) :
    ∀ op ∈ [Op.process (poisonCall j 1000 2000 v)], (cfg m 2 p true f).OpOk op := by
  subst hm
  intro op hop
  simp only [List.mem_cons, List.not_mem_nil, or_false] at hop
  subst hop
  exact ⟨by show 1000 < 2 ^ 32; norm_num, by show 1000 ≤ 1000 + 2; omega, by show 1000 * 2 ≤ 2000; omega, by simp [cfg],
    fun _ _ _ => by show 1000 < 2 ^ 31; norm_num, fun _ _ => Or.inr (by show 0 < 1000; norm_num), by simp [cfg]⟩

/-- C70_fir_silent: upsampling by 2, 24 bits, SSE. 1000 samples, number 100 not finite, the others zero: all output samples that belong to
input samples after number `100 + memory + 11` are exactly zero. -/
example : ∃ q, (cfg .up 2 24 true .fir).session [Op.process (poisonCall 100 1000 2000 0)] = .ok q ∧
    ∀ n, 100 + (cfg .up 2 24 true .fir).memory + 11 < n / 2 →
      seq ((cfg .up 2 24 true .fir).produced [Op.process (poisonCall 100 1000 2000 0)] q.2) n = 0 := by
  have hv : (cfg .up 2 24 true .fir).Valid := ⟨by decide, by decide, by decide⟩
  obtain ⟨r, os, h, -⟩ := C04_output_frame _ hv _ (poison_ok rfl)
  refine ⟨_, h, fun n hn => C70_fir_silent _ hv rfl _ (poison_ok rfl) r os h n fun i hi => ?_⟩
  have hi : n / 2 ≤ i + ((cfg .up 2 24 true .fir).memory + 11) := hi.1
  rcases Nat.lt_or_ge i 1000 with h1 | h1
  · rw [fed_poison _ _ _ _ _ h1, if_neg (by omega)]
    rfl
  · exact fed_poison_past _ _ _ _ _ h1

/-- C71_fir_recovers: the same with 1/2 instead of zero: these output samples are finite, at most `1.6 / 2`. -/
example : ∃ q, (cfg .up 2 24 true .fir).session [Op.process (poisonCall 100 1000 2000 (1 / 2))] = .ok q ∧
    ∀ n < 2000, 100 + (cfg .up 2 24 true .fir).memory + 11 < n / 2 →
      ∃ y, seq ((cfg .up 2 24 true .fir).produced [Op.process (poisonCall 100 1000 2000 (1 / 2))] q.2) n = Fl.fin y ∧ |y| ≤ 2 := by
  have hv : (cfg .up 2 24 true .fir).Valid := ⟨by decide, by decide, by decide⟩
  obtain ⟨r, os, h, -⟩ := C04_output_frame _ hv _ (poison_ok rfl)
  refine ⟨_, h, fun n hn hl => ?_⟩
  obtain ⟨y, y1, y2, -⟩ := C71_fir_recovers _ hv rfl _ (poison_ok rfl) r os h (1 / 2) (by norm_num) (by norm_num) n (by
      rw [Config.produced_length hv (Config.session_rel' hv (poison_ok rfl) h), fed_poison_length]
      exact hn) fun i hi => by
    have hi : n / 2 ≤ i + ((cfg .up 2 24 true .fir).memory + 11) := hi.1
    rcases Nat.lt_or_ge i 1000 with h1 | h1
    · rw [fed_poison _ _ _ _ _ h1, if_neg (by omega)]
      exact ⟨_, rfl, by norm_num⟩
    · exact ⟨0, fed_poison_past _ _ _ _ _ h1, by norm_num⟩
  refine ⟨y, y1, y2.trans ?_⟩
  have : (gainMilli .up 2 24 : ℚ) / 1000 * (1 / 2) + 2⁻¹ ^ 140 ≤ 2 := by decide +kernel
  exact this

/-- C71_false_iir: the same with an IIR filter: all 1800 output samples from number 200 on are not finite. -/
example : ∃ q, (cfg .up 2 24 true .iir).session [Op.process (poisonCall 100 1000 2000 (1 / 2))] = .ok q ∧
    ∀ n < 2000, 200 ≤ n → seq ((cfg .up 2 24 true .iir).produced [Op.process (poisonCall 100 1000 2000 (1 / 2))] q.2) n = Fl.bad := by
  have hv : (cfg .up 2 24 true .iir).Valid := ⟨by decide, by decide, by decide⟩
  obtain ⟨r, os, h, -⟩ := C04_output_frame _ hv _ (poison_ok rfl)
  refine ⟨_, h, fun n hn hl => C71_false_iir _ hv rfl (by decide) _ (poison_ok rfl) r os h 100 ?_ n ?_ ?_⟩
  · rw [fed_poison _ _ _ _ _ (by norm_num), if_pos rfl]
  · rw [Config.produced_length hv (Config.session_rel' hv (poison_ok rfl) h), fed_poison_length]
    exact hn
  · show 2 * 100 ≤ n
    omega

/-! ## Why C20 is sample-wise only without SSE -/

/-- Is output sample `i` not finite? -/
private def badAt (c : Config) (op : Op F32) (i : ℕ) : Option Bool :=
  match c.session [op] with
  | .ok (_, os) => some (match seq (c.produced [op] os) i with
    | some _ => false
    | none => true)
  | .error _ => none

private theorem badAt_ok {c : Config} {op : Op F32} {i : ℕ} (h : badAt c op i = some true) :
    ∃ r os, c.session [op] = .ok (r, os) ∧ seq (c.produced [op] os) i = Fl.bad := by
  unfold badAt at h
  split at h
  case h_2 => cases h
  rename_i r os hs
  refine ⟨r, os, hs, ?_⟩
  split at h
  · cases h
  · assumption

private theorem badAt_not {c : Config} {op : Op F32} {i : ℕ} (h : badAt c op i = some false) :
    ∃ r os, c.session [op] = .ok (r, os) ∧ ∃ y, seq (c.produced [op] os) i = Fl.fin y := by
  unfold badAt at h
  split at h
  case h_2 => cases h
  rename_i r os hs
  refine ⟨r, os, hs, ?_⟩
  split at h
  · rename_i y hy
    exact ⟨y, hy⟩
  · cases h

/-- **Single output samples of the SSE FIR code depend on later input samples** (so C20 cannot be extended to it): input samples 0 to 7
are zero, number 8 is not finite. Upsampling by 2 with 8 bits: output sample 8, which belongs to input sample 4, is not
finite with SSE and finite without. Downsampling: the same for input sample 24 and output sample 8, which belongs to input samples 16 and 17. -/
theorem C20_false_sse_early :
    (∃ r os, (cfg .up 2 8 true .fir).session [Op.process (poisonCall 8 16 32 0)] = .ok (r, os) ∧
      seq ((cfg .up 2 8 true .fir).produced [Op.process (poisonCall 8 16 32 0)] os) 8 = Fl.bad) ∧
    (∃ r os, (cfg .up 2 8 false .fir).session [Op.process (poisonCall 8 16 32 0)] = .ok (r, os) ∧
      ∃ y, seq ((cfg .up 2 8 false .fir).produced [Op.process (poisonCall 8 16 32 0)] os) 8 = Fl.fin y) ∧
    (∃ r os, (cfg .down 2 8 true .fir).session [Op.process (poisonCall 24 32 16 0)] = .ok (r, os) ∧
      seq ((cfg .down 2 8 true .fir).produced [Op.process (poisonCall 24 32 16 0)] os) 8 = Fl.bad) ∧
    (∃ r os, (cfg .down 2 8 false .fir).session [Op.process (poisonCall 24 32 16 0)] = .ok (r, os) ∧
      ∃ y, seq ((cfg .down 2 8 false .fir).produced [Op.process (poisonCall 24 32 16 0)] os) 8 = Fl.fin y) := by
  have h : badAt (cfg .up 2 8 true .fir) (Op.process (poisonCall 8 16 32 0)) 8 = some true ∧
      badAt (cfg .up 2 8 false .fir) (Op.process (poisonCall 8 16 32 0)) 8 = some false ∧
      badAt (cfg .down 2 8 true .fir) (Op.process (poisonCall 24 32 16 0)) 8 = some true ∧
      badAt (cfg .down 2 8 false .fir) (Op.process (poisonCall 24 32 16 0)) 8 = some false := by decide +kernel
  exact ⟨badAt_ok h.1, badAt_not h.2.1, badAt_ok h.2.2.1, badAt_not h.2.2.2⟩

end Panda
