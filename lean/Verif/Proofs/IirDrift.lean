import Verif.Proofs.IirRoundStage

/-!
# The section with coefficient 1 drifts at most linearly

The SSE filters with an odd number of coefficients end branch 1 with a section with coefficient 1. Its rounding errors add up. Each sample
adds at most `9 * 2^-24` times the magnitude of the section's input.
-/

namespace Panda

open Examples

variable {S : Format} {η Ω : ℚ} {T : Type} [Zero T] [One T] [Add T] [Sub T] [Mul T] [Sample T] {V : T → ℚ → Prop}

/-- After `n` samples the section with coefficient 1 is off by at most `n * 9 * 2^-24` times the bound for its input. -/
theorem unit_section_drift (hS : IirArith S V η Ω) {B : ℚ} (hη : η ≤ τ32 * B) (hΩ : 16 * B ≤ Ω) {vt : ℕ → T} {v : ℕ → ℚ} (hvt : ∀ n, V (vt n) (v n)) (hv : ∀ n, |v n| ≤ B)
    {N : ℕ} (hN : driftU * N ≤ 1) :
    ∃ w : ℕ → ℚ, ∀ n < N, V (allpass 1 vt n) (w n) ∧ |w n - v n| ≤ driftU * (n + 1) * B := by
  have hB : 0 ≤ B := (abs_nonneg _).trans (hv 0)
  have hu0 : 0 ≤ driftU := by norm_num [u32r]
  have all : ∀ n < N, ∃ y, V (allpass 1 vt n) y ∧ |y - v n| ≤ driftU * (n + 1) * B := by
    intro n hn
    induction n with
    | zero =>
      obtain ⟨y, y1, y2⟩ := hS.unit (d := 0) (hvt 0) hS.zero (by rw [add_zero]; exact hS.zero) hη hΩ (hv 0) (by simpa using hB) (by simpa using hB)
      exact ⟨y, y1, by simpa using y2⟩
    | succ n ih =>
      obtain ⟨w, h1, h2⟩ := ih (by omega)
      have hd : |w - v n| ≤ B := by
        refine h2.trans ?_
        have : driftU * ((n : ℚ) + 1) ≤ driftU * N := mul_le_mul_of_nonneg_left (by exact_mod_cast hn.le) hu0
        nlinarith
      obtain ⟨y, y1, y2⟩ := hS.unit (hvt (n + 1)) (hvt n) (by rw [add_sub_cancel]; exact h1) hη hΩ (hv (n + 1)) (hv n) hd
      refine ⟨y, y1, ?_⟩
      push_cast
      linarith
  classical
  refine ⟨fun n => if h : n < N then (all n h).choose else 0, fun n hn => ?_⟩
  simp only [dif_pos hn]
  exact (all n hn).choose_spec

/-- Errors of the branches with the drift of `N` samples: `ρ = N * driftU`. -/
def driftW (sse : Bool) (t : List Dec) (g w : ℕ → ℚ) (ρ : ℚ) (b : ℕ) : ℚ :=
  if b = 1 ∧ sse = true ∧ t.length % 2 = 1 then w 1 + ρ * (g 1 + w 1) else w b

/-- Branch 1. -/
theorem branch1_facts (hS : IirArith S V η Ω) {sse : Bool} {t : List Dec} {g w : ℕ → ℚ} (ht : StageBnd t g w) (hg : 1 ≤ g 1)
    (hco : ∀ d ∈ t, CoefOk S d) {X0 : ℚ} (hη : η ≤ τ32 * X0) (hΩ : 2 ^ 15 * X0 ≤ Ω) {N : ℕ} (hN : driftU * N ≤ 1) :
    BranchFacts V (iirBranch1 sse t.length (seq (t.map fun d => (Sample.ofDouble d.toRat : T))))
      (branchOut t.length (seq (t.map fun d => d.toRat)) 1) (g 1) (driftW sse t g w (driftU * N) 1) X0 N := by
  intro xt x hv hx
  have hX0 : 0 ≤ X0 := (abs_nonneg _).trans (hx 0)
  obtain ⟨y, h1, h2, h3⟩ := branch_round hS.toSecArith ht hco (b := 1) (by omega) hη hΩ hv hx
  by_cases hs : sse = true ∧ t.length % 2 = 1
  · have hw := ht.hw 1 (by omega)
    have hbig := ht.big 1 (by omega)
    have hu0 : 0 ≤ driftU := by norm_num [u32r]
    have hB : 0 ≤ (g 1 + w 1) * X0 := mul_nonneg (by linarith) hX0
    have hτ0 : 0 ≤ τ32 := by norm_num [τ32]
    obtain ⟨z, hz⟩ := unit_section_drift hS (B := (g 1 + w 1) * X0) (hη.trans (mul_le_mul_of_nonneg_left (by nlinarith) hτ0))
      (by
        have : (g 1 + w 1) * X0 ≤ 2 ^ 10 * X0 := mul_le_mul_of_nonneg_right hbig hX0
        norm_num at this hΩ
        linarith) h1 h2 hN
    have hd : ∀ n < N, |z n - y n| ≤ driftU * N * (g 1 + w 1) * X0 := by
      intro n hn
      refine (hz n hn).2.trans ?_
      rw [mul_assoc (driftU * N)]
      refine mul_le_mul_of_nonneg_right (mul_le_mul_of_nonneg_left ?_ hu0) hB
      exact_mod_cast hn
    have e : driftW sse t g w (driftU * N) 1 = w 1 + driftU * N * (g 1 + w 1) := if_pos ⟨rfl, hs⟩
    rw [e]
    refine ⟨z, fun n hn => ?_, fun n hn => ?_, fun L r E hr n hn hn' => ?_⟩
    · unfold iirBranch1
      rw [if_pos hs]
      exact (hz n hn).1
    · have h4 := hd n hn
      have h5 := h2 n
      have h6 := abs_sub_abs_le_abs_sub (z n) (y n)
      linarith
    · have h4 := hd n hn'
      have h5 := h3 L r E hr n hn
      have h6 := abs_add_le (z n - y n) (y n - branchOut t.length (seq (t.map fun d => d.toRat)) 1 r n)
      rw [sub_add_sub_cancel] at h6
      linarith
  · have e : driftW sse t g w (driftU * N) 1 = w 1 := if_neg fun h => hs h.2
    rw [e]
    refine ⟨y, fun n _ => ?_, fun n _ => h2 n, fun L r E hr n hn _ => h3 L r E hr n hn⟩
    unfold iirBranch1
    rw [if_neg hs]
    exact h1 n

/-- A stage with drift. -/
theorem iirStage_drift (hS : IirArith S V η Ω) {m : Mode} {sse : Bool} {t : List Dec} {g w : ℕ → ℚ} (ht : StageBnd t g w)
    (hg : ∀ b < 2, 1 ≤ g b) (hbig : ∀ b < 2, g b + w b ≤ 2 ^ 9)
    (hco : ∀ d ∈ t, CoefOk S d) {X0 : ℚ} (hη : η ≤ τ32 * X0) (hΩ : 2 ^ 15 * X0 ≤ Ω) {N : ℕ} (hN : driftU * N ≤ 1)
    {xs : List ℚ} {xt ys : List T} (hv : Vals V xt xs) (h : Stage.Rel (iirStageOf m sse t) xt ys)
    (hNl : min xs.length ys.length ≤ N)
    (hx : ∀ n, |seq xs n| ≤ X0) {r : ℕ → ℚ} {E : ℚ} (hE : 0 ≤ E) (hr : ∀ n < xs.length, |seq xs n - r n| ≤ E) :
    ∃ yq : List ℚ, Vals V ys yq ∧
      (∀ n, |seq yq n| ≤ (iirGain m g + iirNoise m g (driftW sse t g w (driftU * N))) * X0) ∧
      ∀ n < yq.length, |seq yq n - (iirStageOf (F := ℚ) m sse t).op r n| ≤
        iirGain m g * E + iirNoise m g (driftW sse t g w (driftU * N)) * X0 := by
  have hρ : 0 ≤ driftU * N := by
    have : 0 ≤ driftU := by norm_num [u32r]
    positivity
  have hdw : ∀ b < 2, w b ≤ driftW sse t g w (driftU * N) b ∧ driftW sse t g w (driftU * N) b ≤ w b + (g b + w b) := by
    intro b hb
    have h1 := hg b hb
    have h2 := ht.hw b hb
    unfold driftW
    split
    · rename_i hc
      obtain ⟨rfl, -⟩ := hc
      constructor <;> nlinarith
    · constructor <;> linarith
  have f0 : BranchFacts V (branchOut t.length (seq (t.map fun d => (Sample.ofDouble d.toRat : T))) 0)
      (branchOut t.length (seq (t.map fun d => d.toRat)) 0) (g 0) (driftW sse t g w (driftU * N) 0) X0 N := by
    intro xt x hv hx
    obtain ⟨y, h1, h2, h3⟩ := branch_round hS.toSecArith ht hco (b := 0) (by omega) hη hΩ hv hx
    have e : driftW sse t g w (driftU * N) 0 = w 0 := if_neg (by omega)
    rw [e]
    exact ⟨y, fun n _ => h1 n, fun n _ => h2 n, fun L r E hr n hn _ => h3 L r E hr n hn⟩
  refine iirStage_round_of hS (fun b hb => ?_) (fun b hb => ?_) hη hΩ f0 (branch1_facts hS ht (hg 1 (by omega)) hco hη hΩ hN) hv h hNl hx hE hr
  · have := (hdw b hb).2
    have h2 := hbig b hb
    have h1 := hg b hb
    rw [show (2 : ℚ) ^ 10 = 2 ^ 9 + 2 ^ 9 by norm_num]
    linarith
  · have := (hdw b hb).1
    have h1 := hg b hb
    have h2 := ht.hw b hb
    linarith

/-! ## Cascades -/

/-- Effect of a stage on the bounds for signal and error, with drift `ρ`. -/
def linStep (m : Mode) (sse : Bool) (p : ℕ) (ρ : ℚ) (s : ℚ × ℚ) (k : ℕ) : ℚ × ℚ :=
  ((iirGain m (iirG k p) + iirNoise m (iirG k p) (driftW sse (iirDecs k p) (iirG k p) (iirW k p) ρ)) * s.1,
    iirGain m (iirG k p) * s.2 + iirNoise m (iirG k p) (driftW sse (iirDecs k p) (iirG k p) (iirW k p) ρ) * s.1)

theorem iir_gains : ∀ k ∈ [2, 4, 8], ∀ p ∈ [8, 12, 16, 20, 24], ∀ b < 2, 1 ≤ iirG k p b ∧ iirG k p b + iirW k p b ≤ 8 := by
  decide +kernel

theorem driftW_nonneg {sse : Bool} {k p : ℕ} (hk : k ∈ [2, 4, 8]) (hp : p ∈ [8, 12, 16, 20, 24]) {ρ : ℚ} (hρ : 0 ≤ ρ) {b : ℕ} (hb : b < 2) :
    0 ≤ driftW sse (iirDecs k p) (iirG k p) (iirW k p) ρ b := by
  have h1 := (iir_gains k hk p hp b hb).1
  have h2 := (stageBnd_tab hk hp).hw b hb
  unfold driftW
  split
  · rename_i hc
    obtain ⟨rfl, -⟩ := hc
    have : 0 ≤ ρ * (iirG k p 1 + iirW k p 1) := mul_nonneg hρ (by linarith)
    linarith
  · exact h2

theorem driftW_mono {sse : Bool} {k p : ℕ} (hk : k ∈ [2, 4, 8]) (hp : p ∈ [8, 12, 16, 20, 24]) {ρ σ : ℚ} (hρ : ρ ≤ σ) {b : ℕ} (hb : b < 2) :
    driftW sse (iirDecs k p) (iirG k p) (iirW k p) ρ b ≤ driftW sse (iirDecs k p) (iirG k p) (iirW k p) σ b := by
  have h1 := (iir_gains k hk p hp b hb).1
  have h2 := (stageBnd_tab hk hp).hw b hb
  unfold driftW
  split
  · rename_i hc
    obtain ⟨rfl, -⟩ := hc
    have : ρ * (iirG k p 1 + iirW k p 1) ≤ σ * (iirG k p 1 + iirW k p 1) := mul_le_mul_of_nonneg_right hρ (by linarith)
    linarith
  · exact le_rfl

theorem iirGain_one {m : Mode} {k p : ℕ} (hk : k ∈ [2, 4, 8]) (hp : p ∈ [8, 12, 16, 20, 24]) : 1 ≤ iirGain m (iirG k p) := by
  have h0 := (iir_gains k hk p hp 0 (by omega)).1
  have h1 := (iir_gains k hk p hp 1 (by omega)).1
  cases m with
  | up => exact h0.trans (le_max_left _ _)
  | down =>
    unfold iirGain
    linarith

theorem iirNoise_nonneg {m : Mode} {g w : ℕ → ℚ} (hg : ∀ b < 2, 0 ≤ g b) (hw : ∀ b < 2, 0 ≤ w b) : 0 ≤ iirNoise m g w := by
  have g0 := hg 0 (by omega)
  have g1 := hg 1 (by omega)
  have h0 := hw 0 (by omega)
  have h1 := hw 1 (by omega)
  cases m with
  | up => exact h0.trans (le_max_left _ _)
  | down =>
    unfold iirNoise
    have : 0 ≤ τ32 := by norm_num [τ32]
    positivity

theorem iirNoise_mono {m : Mode} {g w w' : ℕ → ℚ} (hw : ∀ b < 2, w b ≤ w' b) : iirNoise m g w ≤ iirNoise m g w' := by
  have h0 := hw 0 (by omega)
  have h1 := hw 1 (by omega)
  cases m with
  | up => exact max_le_max h0 h1
  | down =>
    unfold iirNoise
    have : u32r * (1 + u32r) * (g 0 + w 0 + (g 1 + w 1)) ≤ u32r * (1 + u32r) * (g 0 + w' 0 + (g 1 + w' 1)) :=
      mul_le_mul_of_nonneg_left (by linarith) (by norm_num [u32r])
    linarith

/-- The errors of a stage are a convex function of the drift. -/
theorem iirNoise_chord {m : Mode} {g w w0 w1 : ℕ → ℚ} {θ : ℚ} (h0 : 0 ≤ θ) (h1 : θ ≤ 1) (hw : ∀ b < 2, w b = (1 - θ) * w0 b + θ * w1 b) :
    iirNoise m g w ≤ (1 - θ) * iirNoise m g w0 + θ * iirNoise m g w1 := by
  have e0 := hw 0 (by omega)
  have e1 := hw 1 (by omega)
  have h1' : 0 ≤ 1 - θ := by linarith
  cases m with
  | up =>
    unfold iirNoise
    rw [e0, e1]
    refine max_le ?_ ?_ <;> refine add_le_add (mul_le_mul_of_nonneg_left ?_ h1') (mul_le_mul_of_nonneg_left ?_ h0)
    · exact le_max_left _ _
    · exact le_max_left _ _
    · exact le_max_right _ _
    · exact le_max_right _ _
  | down =>
    unfold iirNoise
    rw [e0, e1]
    apply le_of_eq
    ring

/-- `a` lies below the chord from `b` to `c`. -/
structure Chord (θ a b c : ℚ) : Prop where
  ha : 0 ≤ a
  hb : 0 ≤ b
  hbc : b ≤ c
  le : a ≤ (1 - θ) * b + θ * c

theorem Chord.mul {θ a b c a' b' c' : ℚ} (h0 : 0 ≤ θ) (h1 : θ ≤ 1) (h : Chord θ a b c) (h' : Chord θ a' b' c') : Chord θ (a * a') (b * b') (c * c') := by
  have h1' : 0 ≤ 1 - θ := by linarith
  refine ⟨mul_nonneg h.ha h'.ha, mul_nonneg h.hb h'.hb, mul_le_mul h.hbc h'.hbc h'.hb (h.hb.trans h.hbc), ?_⟩
  refine (mul_le_mul h.le h'.le h'.ha (h.ha.trans h.le)).trans ?_
  have : 0 ≤ θ * (1 - θ) * ((c - b) * (c' - b')) :=
    mul_nonneg (mul_nonneg h0 h1') (mul_nonneg (by linarith [h.hbc]) (by linarith [h'.hbc]))
  linarith

theorem Chord.add {θ a b c a' b' c' : ℚ} (h : Chord θ a b c) (h' : Chord θ a' b' c') : Chord θ (a + a') (b + b') (c + c') :=
  ⟨add_nonneg h.ha h'.ha, add_nonneg h.hb h'.hb, add_le_add h.hbc h'.hbc, by linarith [h.le, h'.le]⟩

theorem Chord.const {θ a : ℚ} (h : 0 ≤ a) : Chord θ a a a := ⟨h, h, le_rfl, by linarith⟩

theorem linStep_chord {m : Mode} {sse : Bool} {k p : ℕ} (hk : k ∈ [2, 4, 8]) (hp : p ∈ [8, 12, 16, 20, 24]) {θ ρ : ℚ} (h0 : 0 ≤ θ) (h1 : θ ≤ 1)
    (hρ : 0 ≤ ρ) {s s0 s1 : ℚ × ℚ} (ha : Chord θ s.1 s0.1 s1.1) (hb : Chord θ s.2 s0.2 s1.2) :
    Chord θ (linStep m sse p (θ * ρ) s k).1 (linStep m sse p 0 s0 k).1 (linStep m sse p ρ s1 k).1 ∧
    Chord θ (linStep m sse p (θ * ρ) s k).2 (linStep m sse p 0 s0 k).2 (linStep m sse p ρ s1 k).2 := by
  have hg : ∀ b < 2, 0 ≤ iirG k p b := fun b hb => by linarith [(iir_gains k hk p hp b hb).1]
  have hG := Chord.const (θ := θ) (show 0 ≤ iirGain m (iirG k p) by linarith [iirGain_one (m := m) hk hp])
  have hW : Chord θ (iirNoise m (iirG k p) (driftW sse (iirDecs k p) (iirG k p) (iirW k p) (θ * ρ)))
      (iirNoise m (iirG k p) (driftW sse (iirDecs k p) (iirG k p) (iirW k p) 0))
      (iirNoise m (iirG k p) (driftW sse (iirDecs k p) (iirG k p) (iirW k p) ρ)) := by
    refine ⟨iirNoise_nonneg hg fun b hb => driftW_nonneg hk hp (mul_nonneg h0 hρ) hb, iirNoise_nonneg hg fun b hb => driftW_nonneg hk hp le_rfl hb,
      iirNoise_mono fun b hb => driftW_mono hk hp hρ hb, iirNoise_chord h0 h1 fun b hb => ?_⟩
    unfold driftW
    split <;> ring
  exact ⟨(hG.add hW).mul h0 h1 ha, (hG.mul h0 h1 hb).add (hW.mul h0 h1 ha)⟩

theorem linStep_fold {m : Mode} {sse : Bool} {p : ℕ} (hp : p ∈ [8, 12, 16, 20, 24]) {θ ρ : ℚ} (h0 : 0 ≤ θ) (h1 : θ ≤ 1) (hρ : 0 ≤ ρ)
    (ks : List ℕ) (hks : ∀ k ∈ ks, k ∈ [2, 4, 8]) {s s0 s1 : ℚ × ℚ} (ha : Chord θ s.1 s0.1 s1.1) (hb : Chord θ s.2 s0.2 s1.2) :
    Chord θ (ks.foldl (linStep m sse p (θ * ρ)) s).1 (ks.foldl (linStep m sse p 0) s0).1 (ks.foldl (linStep m sse p ρ) s1).1 ∧
    Chord θ (ks.foldl (linStep m sse p (θ * ρ)) s).2 (ks.foldl (linStep m sse p 0) s0).2 (ks.foldl (linStep m sse p ρ) s1).2 := by
  induction ks generalizing s s0 s1 with
  | nil => exact ⟨ha, hb⟩
  | cons k ks ih =>
    obtain ⟨h2, h3⟩ := linStep_chord (m := m) (sse := sse) (hks k (by simp)) hp h0 h1 hρ ha hb
    exact ih (fun k hk => hks k (by simp [hk])) h2 h3

/-- Conditions on the bounds. -/
def linFits (m : Mode) (sse : Bool) (p : ℕ) (ρ : ℚ) : List ℕ → ℚ × ℚ → Bool
  | [], _ => true
  | k :: ks, s => decide (s.1 ≤ 2 ^ 10) && linFits m sse p ρ ks (linStep m sse p ρ s k)

/-- Lengths of the signals in a cascade. -/
theorem iir_lengths {m : Mode} {sse : Bool} {t : List Dec} {xs ys : List T} (h : Stage.Rel (iirStageOf m sse t) xs ys) :
    match m with
    | .up => ys.length = 2 * xs.length
    | .down => xs.length = 2 * ys.length := by
  cases m with
  | up => exact h.1
  | down => exact h.1

theorem cascade_lengths {m : Mode} {sse : Bool} {p : ℕ} (ks : List ℕ) {xs zs : List T}
    (h : CascadeRel (ks.map fun k => iirStageOf m sse (iirDecs k p)) xs zs) :
    match m with
    | .up => xs.length ≤ zs.length
    | .down => zs.length ≤ xs.length := by
  induction ks generalizing xs with
  | nil =>
    have : zs = xs := h
    subst this
    cases m <;> exact le_rfl
  | cons k ks ih =>
    obtain ⟨ys, h1, h2⟩ := h
    have e1 := iir_lengths h1
    have e2 := ih h2
    cases m <;> simp only at e1 e2 ⊢ <;> omega

/-- A cascade with drift: `N` is a bound for the numbers of input and output samples. -/
theorem iir_cascade_drift (hS : IirArith S V η Ω) {m : Mode} {sse : Bool} {p : ℕ} (hp : p ∈ [8, 12, 16, 20, 24]) {M : ℚ} (hM : 0 ≤ M)
    (hη : η ≤ τ32 * M) (hΩ : 2 ^ 25 * M ≤ Ω) (ks : List ℕ) (hks : ∀ k ∈ ks, k ∈ [2, 4, 8])
    (hco : ∀ k ∈ ks, ∀ d ∈ iirDecs k p, CoefOk S d) {N : ℕ} {ρ : ℚ} (hρ : driftU * N ≤ ρ) (hρ1 : ρ ≤ 1)
    (s s1 : ℚ × ℚ) (hs1 : 1 ≤ s.1) (hs2 : 0 ≤ s.2) (hs3 : s.1 ≤ s1.1) (hfit : linFits m sse p ρ ks s1 = true)
    {xs : List ℚ} {xt zs : List T} (hv : Vals V xt xs) (h : CascadeRel (ks.map fun k => iirStageOf m sse (iirDecs k p)) xt zs)
    (hlx : xs.length ≤ N) (hlz : zs.length ≤ N)
    (hx : ∀ n, |seq xs n| ≤ s.1 * M) {r : ℕ → ℚ} (hr : ∀ n < xs.length, |seq xs n - r n| ≤ s.2 * M) :
    ∃ zq : List ℚ, Vals V zs zq ∧ (∀ n, |seq zq n| ≤ (ks.foldl (linStep m sse p (driftU * N)) s).1 * M) ∧
      ∀ n < zq.length, |seq zq n - cascadeOp (ks.map fun k => iirStageOf (F := ℚ) m sse (iirDecs k p)) r n| ≤
        (ks.foldl (linStep m sse p (driftU * N)) s).2 * M := by
  induction ks generalizing s s1 xs xt r with
  | nil =>
    have h : zs = xt := h
    exact ⟨xs, h ▸ hv, hx, hr⟩
  | cons k ks ih =>
    obtain ⟨ys, h1, h2⟩ := h
    rw [linFits, Bool.and_eq_true, decide_eq_true_eq] at hfit
    obtain ⟨f1, f2⟩ := hfit
    have hk : k ∈ [2, 4, 8] := hks k (by simp)
    have hMM : M ≤ s.1 * M := by nlinarith
    have hly : ys.length ≤ N := by
      have e1 := iir_lengths h1
      have e2 := cascade_lengths ks h2
      have := hv.1
      cases m <;> simp only at e1 e2 <;> omega
    obtain ⟨yq, hyq, y1, y2⟩ := iirStage_drift hS (stageBnd_tab hk hp) (fun b hb => (iir_gains k hk p hp b hb).1)
      (fun b hb => (iir_gains k hk p hp b hb).2.trans (by norm_num)) (hco k (by simp)) (X0 := s.1 * M)
      (hη.trans (mul_le_mul_of_nonneg_left hMM (by positivity))) (by
        have : s.1 * M ≤ 2 ^ 10 * M := mul_le_mul_of_nonneg_right (hs3.trans f1) hM
        norm_num at hΩ this ⊢
        linarith) (hρ.trans hρ1) hv h1 ((min_le_left _ _).trans hlx) hx (mul_nonneg hs2 hM) hr
    have hρ0 : 0 ≤ driftU * N := by
      have : 0 ≤ driftU := by norm_num [u32r]
      positivity
    have hg : ∀ b < 2, 0 ≤ iirG k p b := fun b hb => by linarith [(iir_gains k hk p hp b hb).1]
    have g1 := iirGain_one (m := m) hk hp
    have n0 : 0 ≤ iirNoise m (iirG k p) (driftW sse (iirDecs k p) (iirG k p) (iirW k p) (driftU * N)) :=
      iirNoise_nonneg hg fun b hb => driftW_nonneg hk hp hρ0 hb
    have n1 : iirNoise m (iirG k p) (driftW sse (iirDecs k p) (iirG k p) (iirW k p) (driftU * N)) ≤
      iirNoise m (iirG k p) (driftW sse (iirDecs k p) (iirG k p) (iirW k p) ρ) := iirNoise_mono fun b hb => driftW_mono hk hp hρ hb
    have e1 : (iirGain m (iirG k p) + iirNoise m (iirG k p) (driftW sse (iirDecs k p) (iirG k p) (iirW k p) (driftU * N))) * (s.1 * M) =
        (linStep m sse p (driftU * N) s k).1 * M := by
      simp only [linStep]; ring
    have e2 : iirGain m (iirG k p) * (s.2 * M) + iirNoise m (iirG k p) (driftW sse (iirDecs k p) (iirG k p) (iirW k p) (driftU * N)) * (s.1 * M) =
        (linStep m sse p (driftU * N) s k).2 * M := by
      simp only [linStep]; ring
    rw [e1] at y1
    rw [e2] at y2
    refine ih (fun k hk => hks k (by simp [hk])) (fun k hk => hco k (by simp [hk])) _ (linStep m sse p ρ s1 k) ?_ ?_ ?_ f2 hyq h2
      (hyq.1 ▸ hly) y1 y2
    · simp only [linStep]
      nlinarith
    · simp only [linStep]
      have : 0 ≤ iirGain m (iirG k p) := by linarith
      have : 0 ≤ s.1 := by linarith
      positivity
    · simp only [linStep]
      exact mul_le_mul (by linarith) hs3 (by linarith) (by linarith)

end Panda
