import Verif.Proofs.Session

/-!
# When the relations are functions, and causality

No law of arithmetic is used here.
-/

set_option linter.unusedSectionVars false

namespace Panda

variable {F : Type} [Zero F] [One F] [Add F] [Sub F] [Mul F] [Sample F]

theorem firScalar_congr_lt {x y t : Nat → F} {n : Nat} (h : ∀ i < n, x i = y i) : firScalar x t n = firScalar y t n := by
  induction n with
  | zero => rfl
  | succ n ih =>
    unfold firScalar
    rw [ih fun i hi => h i (by omega), h n (by omega)]

theorem padded_congr_lt {O : Nat} {x y : Nat → F} {k j : Nat} (h : ∀ i < k, x i = y i) (hj : j < k + (O - 1)) :
    padded O x j = padded O y j := by
  unfold padded
  split
  · rfl
  · exact h _ (by omega)

theorem allpass_congr_lt {a : F} {x y : Nat → F} {k : Nat} (h : ∀ i < k, x i = y i) {i : Nat} (hi : i < k) :
    allpass a x i = allpass a y i := by
  induction i with
  | zero => unfold allpass; rw [h 0 hi]
  | succ i ih =>
    unfold allpass
    rw [h _ hi, ih (by omega), h i (by omega)]

theorem branch_congr_lt {c : Nat → F} {b : Nat} {x y : Nat → F} {k : Nat} (h : ∀ i < k, x i = y i) (j : Nat) {i : Nat}
    (hi : i < k) : branch c b x j i = branch c b y j i := by
  induction j generalizing i with
  | zero => exact h i hi
  | succ j ih => exact allpass_congr_lt (fun i hi => ih hi) hi

theorem iirBranch1_congr_lt {sse : Bool} {nc : Nat} {c : Nat → F} {x y : Nat → F} {k : Nat} (h : ∀ i < k, x i = y i) {i : Nat}
    (hi : i < k) : iirBranch1 sse nc c x i = iirBranch1 sse nc c y i := by
  unfold iirBranch1
  split
  · exact allpass_congr_lt (fun i hi => branch_congr_lt h _ hi) hi
  · exact branch_congr_lt h _ hi

/-- No vectorised FIR code. -/
def Stage.Scalar : Stage F → Prop
  | .firUp vec _ => vec = false
  | .firDown vec _ => vec = false
  | .iirUp _ _ => True
  | .iirDown _ _ => True

/-- Number of output samples for `n` input samples. -/
def Stage.outN : Stage F → Nat → Nat
  | .firUp _ _, n => 2 * n
  | .firDown _ _, n => n / 2
  | .iirUp _ _, n => 2 * n
  | .iirDown _ _, n => n / 2

theorem FirVal.scalar {t : Nat → F} {O : Nat} {X : Nat → F} {N m : Nat} {v : F} (h : FirVal false t O X N m v) :
    v = firScalar (fun i => X (m + i)) t O := by
  rcases h with h | ⟨h, -⟩
  · exact h
  · cases h

theorem Stage.Rel.length {s : Stage F} {xs ys : List F} (h : s.Rel xs ys) : ys.length = s.outN xs.length := by
  cases s <;> have := h.1 <;> simp only [Stage.outN] <;> omega

/-- Causality of scalar stages: equal inputs up to `k` give equal outputs up to `outN k`. -/
theorem Stage.Rel.causal {s : Stage F} (hs : s.Scalar) (ht : ∀ v t, s = .firUp v t ∨ s = .firDown v t → 2 ≤ t.length)
    {xs ys xs' ys' : List F} (h : s.Rel xs ys)
    (h' : s.Rel xs' ys') {k : Nat} (hk : k ≤ xs.length) (hk' : k ≤ xs'.length) (he : ∀ i < k, seq xs i = seq xs' i) :
    ∀ i < s.outN k, seq ys i = seq ys' i := by
  intro i hi
  cases s with
  | firUp vec t =>
    cases (hs : vec = false)
    have ht := ht _ _ (Or.inl rfl)
    simp only [Stage.outN] at hi
    rcases Nat.mod_two_eq_zero_or_one i with h2 | h2
    · obtain ⟨m, rfl⟩ : ∃ m, i = 2 * m := ⟨i / 2, by omega⟩
      rw [(h.2 m (by omega)).1.scalar, (h'.2 m (by omega)).1.scalar]
      exact firScalar_congr_lt fun j hj => padded_congr_lt he (by omega)
    · obtain ⟨m, rfl⟩ : ∃ m, i = 2 * m + 1 := ⟨i / 2, by omega⟩
      rw [(h.2 m (by omega)).2, (h'.2 m (by omega)).2]
      exact padded_congr_lt he (by omega)
  | firDown vec t =>
    cases (hs : vec = false)
    have ht := ht _ _ (Or.inr rfl)
    simp only [Stage.outN] at hi
    have l1 := h.1
    have l2 := h'.1
    obtain ⟨v, h1, h2⟩ := h.2 i (by omega)
    obtain ⟨v', h1', h2'⟩ := h'.2 i (by omega)
    rw [h2, h2', h1.scalar, h1'.scalar]
    congr 1
    · exact firScalar_congr_lt fun j hj => padded_congr_lt (k := k / 2) (fun i hi => he _ (by omega)) (by omega)
    · congr 1
      exact padded_congr_lt (k := k / 2) (fun i hi => he _ (by omega)) (by omega)
  | iirUp sse c =>
    simp only [Stage.outN] at hi
    rcases Nat.mod_two_eq_zero_or_one i with h2 | h2
    · obtain ⟨m, rfl⟩ : ∃ m, i = 2 * m := ⟨i / 2, by omega⟩
      rw [(h.2 m (by omega)).1, (h'.2 m (by omega)).1]
      exact branch_congr_lt he _ (by omega)
    · obtain ⟨m, rfl⟩ : ∃ m, i = 2 * m + 1 := ⟨i / 2, by omega⟩
      rw [(h.2 m (by omega)).2, (h'.2 m (by omega)).2]
      exact iirBranch1_congr_lt he (by omega)
  | iirDown sse c =>
    simp only [Stage.outN] at hi
    have l1 := h.1
    have l2 := h'.1
    rw [h.2 i (by omega), h'.2 i (by omega)]
    have e1 : iirBranch1 sse c.length (seq c) (evens (seq xs)) i = iirBranch1 sse c.length (seq c) (evens (seq xs')) i :=
      iirBranch1_congr_lt (k := k / 2) (fun i hi => he _ (by omega)) (by omega)
    have e0 : branchOut c.length (seq c) 0 (odds (seq xs)) i = branchOut c.length (seq c) 0 (odds (seq xs')) i :=
      branch_congr_lt (k := k / 2) (fun i hi => he _ (by omega)) _ (by omega)
    rw [e0, e1]

/-- Number of output samples of a cascade. -/
def cascadeN : List (Stage F) → Nat → Nat
  | [], n => n
  | s :: ss, n => cascadeN ss (s.outN n)

theorem CascadeRel.length {ss : List (Stage F)} {xs ys : List F} (h : CascadeRel ss xs ys) :
    ys.length = cascadeN ss xs.length := by
  induction ss generalizing xs with
  | nil => cases h; rfl
  | cons s ss ih =>
    obtain ⟨zs, h1, h2⟩ := h
    rw [ih h2, h1.length]
    rfl

theorem Stage.outN_mono (s : Stage F) {m n : Nat} (h : m ≤ n) : s.outN m ≤ s.outN n := by
  cases s <;> simp only [Stage.outN] <;> omega

theorem CascadeRel.causal {ss : List (Stage F)} (hs : ∀ s ∈ ss, s.Scalar)
    (ht : ∀ s ∈ ss, ∀ v t, s = .firUp v t ∨ s = .firDown v t → 2 ≤ t.length) {xs ys xs' ys' : List F}
    (h : CascadeRel ss xs ys) (h' : CascadeRel ss xs' ys') {k : Nat} (hk : k ≤ xs.length) (hk' : k ≤ xs'.length)
    (he : ∀ i < k, seq xs i = seq xs' i) : ∀ i < cascadeN ss k, seq ys i = seq ys' i := by
  induction ss generalizing xs xs' k with
  | nil =>
    cases h; cases h'
    exact he
  | cons s ss ih =>
    obtain ⟨zs, h1, h2⟩ := h
    obtain ⟨zs', h1', h2'⟩ := h'
    refine ih (fun s hs' => hs s (by simp [hs'])) (fun s hs' => ht s (by simp [hs'])) h2 h2' ?_ ?_
      (Stage.Rel.causal (hs s (by simp)) (ht s (by simp)) h1 h1' hk hk' he)
    · rw [h1.length]; exact s.outN_mono hk
    · rw [h1'.length]; exact s.outN_mono hk'

theorem seq_ext {a b : List F} (hl : a.length = b.length) (h : ∀ i < a.length, seq a i = seq b i) : a = b := by
  apply List.ext_getElem hl
  intro i h1 h2
  have := h i h1
  simpa [seq, h1, h2] using this

theorem CascadeRel.functional {ss : List (Stage F)} (hs : ∀ s ∈ ss, s.Scalar)
    (ht : ∀ s ∈ ss, ∀ v t, s = .firUp v t ∨ s = .firDown v t → 2 ≤ t.length) {xs ys ys' : List F}
    (h : CascadeRel ss xs ys) (h' : CascadeRel ss xs ys') : ys = ys' := by
  refine seq_ext (by rw [h.length, h'.length]) fun i hi => ?_
  exact CascadeRel.causal hs ht h h' (Nat.le_refl _) (Nat.le_refl _) (fun _ _ => rfl) i (by rwa [h.length] at hi)

end Panda
