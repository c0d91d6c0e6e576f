import Verif.Proofs.Gain

/-!
# Which input samples an output sample of the FIR code depends on, in any arithmetic

The vectorised code multiplies samples outside of the window of the filter by zero. In exact arithmetic these samples do not matter; a
sample that is not finite makes the product NaN. `Stage.Rel` allows several orders of summation, so what is proved is: the signal can be
replaced outside of the window, and there is an output of the stage for the new signal with the same value.
-/

set_option linter.unusedSectionVars false

namespace Panda

variable {F : Type} [Zero F] [One F] [Add F] [Sub F] [Mul F] [Sample F]

theorem seq_past {xs : List F} {n : ℕ} (h : xs.length ≤ n) : seq xs n = 0 := by
  unfold seq
  rw [List.getD_eq_getElem?_getD, List.getElem?_eq_none h]
  rfl

theorem exists_seq_list (n : ℕ) (P : ℕ → F → Prop) (h : ∀ i < n, ∃ v, P i v) : ∃ l : List F, l.length = n ∧ ∀ i < n, P i (seq l i) := by
  induction n with
  | zero => exact ⟨[], rfl, fun i hi => absurd hi (by omega)⟩
  | succ n ih =>
    obtain ⟨l, hl, h1⟩ := ih fun i hi => h i (by omega)
    obtain ⟨v, hv⟩ := h n (by omega)
    refine ⟨l ++ [v], by simp [hl], fun i hi => ?_⟩
    rcases Nat.lt_or_ge i n with h2 | h2
    · have : seq (l ++ [v]) i = seq l i := by
        simp [seq, List.getD_eq_getElem?_getD, List.getElem?_append_left, hl, h2]
      rw [this]
      exact h1 i h2
    · obtain rfl : i = n := by omega
      have : seq (l ++ [v]) i = v := by
        simp [seq, List.getD_eq_getElem?_getD, ← hl]
      rw [this]
      exact hv

theorem firScalar_congr' {x y t : ℕ → F} {n : ℕ} (h : ∀ i < n, x i = y i) : firScalar x t n = firScalar y t n := by
  induction n with
  | zero => rfl
  | succ n ih => rw [firScalar, firScalar, ih fun i hi => h i (by omega), h n (by omega)]

theorem firLane_congr' {x y t : ℕ → F} {O k r n : ℕ} (h : ∀ i ≤ 4 * n + r, x i = y i) : firLane x t O k r n = firLane y t O k r n := by
  induction n with
  | zero => rw [firLane, firLane, h r (by omega)]
  | succ n ih => rw [firLane, firLane, ih fun i hi => h i (by omega), h _ le_rfl]

theorem firVector_congr' {x y t : ℕ → F} {O k : ℕ} (hO : 2 ≤ O) (h : ∀ i < 4 * ((O + 6) / 4), x i = y i) :
    firVector x t O k = firVector y t O k := by
  unfold firVector
  rw [firLane_congr' (r := 0) fun i hi => h i (by omega), firLane_congr' (r := 1) fun i hi => h i (by omega),
    firLane_congr' (r := 2) fun i hi => h i (by omega), firLane_congr' (r := 3) fun i hi => h i (by omega)]

/-- How many samples before the window of the filter the code touches. -/
def vecBack (vec : Bool) : ℕ := if vec then 3 else 0

/-- How many samples behind the window of the filter the code touches. -/
def vecAhead (vec : Bool) : ℕ := if vec then 6 else 0

theorem FirVal.local {vec : Bool} {t : ℕ → F} {O : ℕ} (hO : 2 ≤ O) {X : ℕ → F} {N m : ℕ} {v : F} (h : FirVal vec t O X N m v) (Y : ℕ → F) :
    ∃ w, FirVal vec t O Y N m w ∧ ((∀ j, m ≤ j + vecBack vec → j < m + O + vecAhead vec → X j = Y j) → w = v) := by
  rcases h with rfl | ⟨hvec, k, hk, hkm, hN, rfl⟩
  · refine ⟨_, Or.inl rfl, fun he => firScalar_congr' fun i hi => (he _ (by omega) (by omega)).symm⟩
  · refine ⟨_, Or.inr ⟨hvec, k, hk, hkm, hN, rfl⟩, fun he => ?_⟩
    refine firVector_congr' hO fun i hi => (he _ ?_ ?_).symm
    · rw [hvec, vecBack, if_pos rfl]; omega
    · rw [hvec, vecAhead, if_pos rfl]; omega

theorem padded_congr' {O : ℕ} {x y : ℕ → F} {j : ℕ} (h : ∀ i, i + (O - 1) = j → x i = y i) : padded O x j = padded O y j := by
  unfold padded
  split
  · rfl
  · exact h _ (by omega)

theorem firUp_local {vec : Bool} {t : List F} (ht : 2 ≤ t.length) {xs ys : List F} (h : Stage.Rel (.firUp vec t) xs ys) {xs' : List F}
    (hl : xs'.length = xs.length) :
    ∃ ys', Stage.Rel (.firUp vec t) xs' ys' ∧ ys'.length = ys.length ∧
      ∀ n, (∀ i, n / 2 ≤ i + (t.length - 1 + vecBack vec) → i ≤ n / 2 + vecAhead vec → seq xs i = seq xs' i) → seq ys' n = seq ys n := by
  obtain ⟨h1, h2⟩ := h
  obtain ⟨ys', l1, l2⟩ := exists_seq_list ys.length (fun n v =>
      (n % 2 = 0 → FirVal vec (seq t) t.length (padded t.length (seq xs')) (xs'.length + (t.length - 1)) (n / 2) v) ∧
      (n % 2 = 1 → v = padded t.length (seq xs') (n / 2 + t.length / 2)) ∧
      ((∀ i, n / 2 ≤ i + (t.length - 1 + vecBack vec) → i ≤ n / 2 + vecAhead vec → seq xs i = seq xs' i) → v = seq ys n)) (by
    intro n hn
    obtain ⟨a, b⟩ := h2 (n / 2) (by omega)
    rcases Nat.mod_two_eq_zero_or_one n with h0 | h0
    · rw [show 2 * (n / 2) = n by omega] at a
      obtain ⟨w, w1, w2⟩ := a.local ht (padded t.length (seq xs'))
      refine ⟨w, fun _ => by rw [hl]; exact w1, fun h => by omega, fun he => w2 fun j hj1 hj2 => ?_⟩
      exact padded_congr' fun i hi => he i (by omega) (by omega)
    · rw [show 2 * (n / 2) + 1 = n by omega] at b
      refine ⟨_, fun h => by omega, fun _ => rfl, fun he => ?_⟩
      rw [b]
      exact padded_congr' fun i hi => (he i (by omega) (by omega)).symm)
  refine ⟨ys', ⟨by omega, fun m hm => ⟨?_, ?_⟩⟩, l1, fun n he => ?_⟩
  · have := (l2 (2 * m) (by omega)).1 (by omega)
    rwa [show 2 * m / 2 = m by omega] at this
  · have := (l2 (2 * m + 1) (by omega)).2.1 (by omega)
    rwa [show (2 * m + 1) / 2 = m by omega] at this
  · rcases Nat.lt_or_ge n ys.length with hn | hn
    · exact (l2 n hn).2.2 he
    · rw [seq_past hn, seq_past (by omega)]

theorem firDown_local {vec : Bool} {t : List F} (ht : 2 ≤ t.length) {xs ys : List F} (h : Stage.Rel (.firDown vec t) xs ys) {xs' : List F}
    (hl : xs'.length = xs.length) :
    ∃ ys', Stage.Rel (.firDown vec t) xs' ys' ∧ ys'.length = ys.length ∧
      ∀ n, (∀ i, 2 * n ≤ i + 2 * (t.length - 1 + vecBack vec) → i < 2 * (n + 1) + 2 * vecAhead vec → seq xs i = seq xs' i) →
        seq ys' n = seq ys n := by
  obtain ⟨h1, h2⟩ := h
  obtain ⟨ys', l1, l2⟩ := exists_seq_list ys.length (fun n y =>
      (∃ v, FirVal vec (seq t) t.length (padded t.length (evens (seq xs'))) (ys.length + (t.length - 1)) n v ∧
        y = v + Sample.half * padded t.length (odds (seq xs')) (n + (t.length / 2 - 1))) ∧
      ((∀ i, 2 * n ≤ i + 2 * (t.length - 1 + vecBack vec) → i < 2 * (n + 1) + 2 * vecAhead vec → seq xs i = seq xs' i) → y = seq ys n)) (by
    intro n hn
    obtain ⟨v, a, b⟩ := h2 n hn
    obtain ⟨w, w1, w2⟩ := a.local ht (padded t.length (evens (seq xs')))
    refine ⟨_, ⟨w, w1, rfl⟩, fun he => ?_⟩
    rw [b, w2 fun j hj1 hj2 => padded_congr' fun i hi => he (2 * i) (by omega) (by omega)]
    congr 2
    exact padded_congr' fun i hi => (he (2 * i + 1) (by omega) (by omega)).symm)
  refine ⟨ys', ⟨by omega, fun m hm => ?_⟩, l1, fun n he => ?_⟩
  · rw [l1]
    exact (l2 m (by omega)).1
  · rcases Nat.lt_or_ge n ys.length with hn | hn
    · exact (l2 n hn).2 he
    · rw [seq_past hn, seq_past (by omega)]

/-- How many input samples back a FIR cascade looks. -/
def reachBack (m : Mode) (vec : Bool) : List (List Dec) → ℕ
  | [] => 0
  | t :: ts =>
    match m with
    | .up => t.length - 1 + vecBack vec + (reachBack m vec ts + 1) / 2
    | .down => 2 * (t.length - 1 + vecBack vec) + 2 * reachBack m vec ts

/-- How many input samples ahead a FIR cascade looks. -/
def reachAhead (m : Mode) (vec : Bool) : List (List Dec) → ℕ
  | [] => 0
  | _ :: ts =>
    match m with
    | .up => vecAhead vec + (reachAhead m vec ts + 1) / 2
    | .down => 2 * vecAhead vec + 2 * reachAhead m vec ts

theorem cascade_local_up {vec : Bool} (ts : List (List Dec)) (ht : ∀ t ∈ ts, 2 ≤ t.length) {xs zs : List F}
    (h : CascadeRel (ts.map (firStage .up vec)) xs zs) {xs' : List F} (hl : xs'.length = xs.length) :
    ∃ zs', CascadeRel (ts.map (firStage .up vec)) xs' zs' ∧ zs'.length = zs.length ∧
      ∀ n, (∀ i, n / 2 ^ ts.length ≤ i + reachBack .up vec ts → i ≤ n / 2 ^ ts.length + reachAhead .up vec ts → seq xs i = seq xs' i) →
        seq zs' n = seq zs n := by
  induction ts generalizing xs xs' with
  | nil =>
    have h : zs = xs := h
    subst h
    exact ⟨xs', rfl, hl, fun n he => (he n (by simp) (by simp)).symm⟩
  | cons t ts ih =>
    obtain ⟨ys, h1, h2⟩ := h
    have h1 : Stage.Rel (.firUp vec (t.map fun d => (Sample.ofDouble (d.toRat * 2) : F))) xs ys := h1
    obtain ⟨ys', a1, a2, a3⟩ := firUp_local (by simpa using ht t (by simp)) h1 hl
    obtain ⟨zs', b1, b2, b3⟩ := ih (fun t h => ht t (by simp [h])) h2 a2
    refine ⟨zs', ⟨ys', a1, b1⟩, b2, fun n he => b3 n fun j hj1 hj2 => (a3 j fun i hi1 hi2 => ?_).symm⟩
    rw [List.length_cons, pow_succ, ← Nat.div_div_eq_div_mul] at he
    rw [List.length_map] at hi1
    refine he i ?_ ?_
    · simp only [reachBack]; omega
    · simp only [reachAhead]; omega

theorem cascade_local_down {vec : Bool} (ts : List (List Dec)) (ht : ∀ t ∈ ts, 2 ≤ t.length) {xs zs : List F}
    (h : CascadeRel (ts.map (firStage .down vec)) xs zs) {xs' : List F} (hl : xs'.length = xs.length) :
    ∃ zs', CascadeRel (ts.map (firStage .down vec)) xs' zs' ∧ zs'.length = zs.length ∧
      ∀ n, (∀ i, 2 ^ ts.length * n ≤ i + reachBack .down vec ts → i < 2 ^ ts.length * (n + 1) + reachAhead .down vec ts → seq xs i = seq xs' i) →
        seq zs' n = seq zs n := by
  induction ts generalizing xs xs' with
  | nil =>
    have h : zs = xs := h
    subst h
    exact ⟨xs', rfl, hl, fun n he => (he n (by simp) (by simp [reachAhead])).symm⟩
  | cons t ts ih =>
    obtain ⟨ys, h1, h2⟩ := h
    have h1 : Stage.Rel (.firDown vec (t.map fun d => (Sample.ofDouble (d.toRat * 1) : F))) xs ys := h1
    obtain ⟨ys', a1, a2, a3⟩ := firDown_local (by simpa using ht t (by simp)) h1 hl
    obtain ⟨zs', b1, b2, b3⟩ := ih (fun t h => ht t (by simp [h])) h2 a2
    refine ⟨zs', ⟨ys', a1, b1⟩, b2, fun n he => b3 n fun j hj1 hj2 => (a3 j fun i hi1 hi2 => ?_).symm⟩
    rw [List.length_cons, pow_succ, show ∀ q, 2 ^ ts.length * 2 * q = 2 * (2 ^ ts.length * q) from fun q => by ring,
      show ∀ q, 2 ^ ts.length * 2 * q = 2 * (2 ^ ts.length * q) from fun q => by ring] at he
    rw [List.length_map] at hi1
    refine he i ?_ ?_
    · simp only [reachBack]; omega
    · simp only [reachAhead]; omega

end Panda
