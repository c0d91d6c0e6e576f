import Verif.Proofs.IirRound
import Verif.Proofs.Energy

/-!
# Peak gain and rounding errors of IIR stages and cascades
-/

set_option linter.unusedSectionVars false

namespace Panda

open Finset Examples

/-- The coefficients of polyphase branch `b`. -/
def branchDecs (t : List Dec) (b : ℕ) : List Dec := (List.range (branchLen t.length b)).map fun i => t.getD (2 * i + b) ⟨0, 0⟩

theorem branchOut_eq_apChain {F : Type} [Zero F] [Add F] [Sub F] [Mul F] (t : List Dec) (f : Dec → F) (b : ℕ) (x : ℕ → F) :
    branchOut t.length (seq (t.map f)) b x = apChain ((branchDecs t b).map f) x := by
  unfold branchOut
  rw [branch_eq_apChain]
  congr 1
  unfold branchDecs
  rw [List.map_map]
  refine List.map_congr_left fun i hi => ?_
  have hi := List.mem_range.1 hi
  unfold branchLen at hi
  have h : 2 * i + b < t.length := by omega
  simp [seq, List.getD_eq_getElem?_getD, h]

theorem mem_branchDecs {t : List Dec} {b : ℕ} {d : Dec} (h : d ∈ branchDecs t b) : d ∈ t := by
  obtain ⟨i, hi, rfl⟩ := List.mem_map.1 h
  have hi := List.mem_range.1 hi
  unfold branchLen at hi
  have h : 2 * i + b < t.length := by omega
  rw [List.getD_eq_getElem?_getD, List.getElem?_eq_getElem h]
  exact List.getElem_mem h

/-- Unit and length used for the evaluation of impulse responses. -/
abbrev levUnit : ℤ := 10 ^ 12

/-- Number of samples of the impulse responses. -/
abbrev levLen : ℕ := 200

/-- Bound for the peak gain of a branch. -/
def branchPeak (t : List Dec) (b : ℕ) : ℚ := levBound levUnit ((branchDecs t b).foldl (levStep levUnit) (levInit levUnit levLen))

/-- Bound for the rounding errors of a branch. -/
def branchNoise (t : List Dec) (b : ℕ) : ℚ := noise levUnit levLen (branchDecs t b) (levInit levUnit levLen) 0

/-- Conditions for the bounds. -/
def branchOk (t : List Dec) (b : ℕ) : Bool := noiseOk levUnit (branchDecs t b) (levInit levUnit levLen) 0

/-- `g` and `w` are bounds for the branches of a table. -/
structure StageBnd (t : List Dec) (g w : ℕ → ℚ) : Prop where
  ok : ∀ b < 2, branchOk t b = true
  peak : ∀ b < 2, branchPeak t b ≤ g b
  noise : ∀ b < 2, branchNoise t b ≤ w b
  hw : ∀ b < 2, 0 ≤ w b
  big : ∀ b < 2, g b + w b ≤ 2 ^ 10

section exact

variable {K : Type} [Field K] [LinearOrder K] [IsStrictOrderedRing K]

theorem branch_peak {t : List Dec} {g w : ℕ → ℚ} (ht : StageBnd t g w) {f : Dec → K}
    (hf : ∀ d ∈ t, 0 ≤ f d ∧ |f d - (d.toRat : K)| ≤ (κ24 : K)) {b : ℕ} (hb : b < 2) {x : ℕ → K} {M : K} (hM : 0 ≤ M) {n : ℕ}
    (hx : ∀ k ≤ n, |x k| ≤ M) : |branchOut t.length (seq (t.map f)) b x n| ≤ (g b : K) * M := by
  rw [branchOut_eq_apChain t f b, apChain_eq_conv]
  refine conv_le ?_ hM hx
  have hn : CoefsNear ((branchDecs t b).map f) (branchDecs t b) := by
    have : ∀ l : List Dec, (∀ d ∈ l, d ∈ t) → CoefsNear (l.map f) l := by
      intro l hl
      induction l with
      | nil => exact List.Forall₂.nil
      | cons d l ih => exact List.Forall₂.cons (hf d (hl d (by simp))) (ih fun d hd => hl d (by simp [hd]))
    exact this _ fun d hd => mem_branchDecs hd
  refine (apChain_absum (s := levUnit) (by norm_num) levLen hn (fun d hd => (noiseOk_pos (ht.ok b hb) d hd).2) _).trans ?_
  exact_mod_cast ht.peak b hb

end exact

variable {S : Format} {η Ω : ℚ}

/-- The IIR stage made from a table. -/
def iirStageOf {F : Type} [Sample F] (m : Mode) (sse : Bool) (t : List Dec) : Stage F :=
  match m with
  | .up => .iirUp sse (t.map fun d => Sample.ofDouble d.toRat)
  | .down => .iirDown sse (t.map fun d => Sample.ofDouble d.toRat)

/-- Peak gain of a stage. -/
def iirGain (m : Mode) (g : ℕ → ℚ) : ℚ :=
  match m with
  | .up => max (g 0) (g 1)
  | .down => (g 0 + g 1) / 2

/-- Rounding errors of a stage. -/
def iirNoise (m : Mode) (g w : ℕ → ℚ) : ℚ :=
  match m with
  | .up => max (w 0) (w 1)
  | .down => (w 0 + w 1) / 2 + u32r * (1 + u32r) * (g 0 + w 0 + (g 1 + w 1)) + 2 * τ32

theorem half_round (hS : S.Acc u32r η Ω) {X0 : ℚ} (hη : η ≤ τ32 * X0) (hX0 : 0 ≤ X0) (hΩ : 2 ^ 15 * X0 ≤ Ω) {p q B : ℚ} (hB : B ≤ 2 ^ 11)
    (hpq : |p + q| ≤ B * X0) :
    ∃ y, (Fl.fin p + Fl.fin q) * Sample.half = (Fl.fin y : Fl S) ∧ |y - (p + q) / 2| ≤ (u32r * (1 + u32r) * B + 2 * τ32) * X0 := by
  have hη0 := hS.hη
  have hu : u32r = 1 / 16777216 := by norm_num [u32r]
  have hB' : B * X0 ≤ 2 ^ 11 * X0 := mul_le_mul_of_nonneg_right hB hX0
  have hτ : τ32 * X0 ≤ X0 := by
    have : τ32 ≤ 1 := by norm_num [τ32]
    nlinarith
  have e1 := hS.err (p + q)
  have e2 := hS.err (S.rnd (p + q) * (1 / 2))
  have hsum : (1 + u32r) * |p + q| + η ≤ Ω := by
    rw [hu]
    norm_num at hΩ hB' ⊢
    linarith
  have a1 := abs_sub_abs_le_abs_sub (S.rnd (p + q)) (p + q)
  rw [abs_mul, abs_of_pos (show (0 : ℚ) < 1 / 2 by norm_num)] at e2
  refine ⟨S.rnd (S.rnd (p + q) * (1 / 2)), ?_, ?_⟩
  · rw [fin_add hS hsum]
    show (Fl.fin (S.rnd (p + q)) * Fl.fin (1 / 2) : Fl S) = _
    refine fin_mul hS ?_
    rw [abs_mul, abs_of_pos (show (0 : ℚ) < 1 / 2 by norm_num)]
    rw [hu] at *
    norm_num at hΩ hB' ⊢
    linarith
  · have e : S.rnd (S.rnd (p + q) * (1 / 2)) - (p + q) / 2 =
      (S.rnd (S.rnd (p + q) * (1 / 2)) - S.rnd (p + q) * (1 / 2)) + (S.rnd (p + q) - (p + q)) * (1 / 2) := by ring
    rw [e]
    refine (abs_add_le _ _).trans ?_
    rw [abs_mul, abs_of_pos (show (0 : ℚ) < 1 / 2 by norm_num)]
    have h3 : |S.rnd (p + q)| ≤ (1 + u32r) * |p + q| + η := by linarith
    have h4 : u32r * (|S.rnd (p + q)| * (1 / 2)) ≤ u32r * (((1 + u32r) * |p + q| + η) * (1 / 2)) := by gcongr
    have h5 : (u32r * (1 + u32r) * B + 2 * τ32) * X0 = u32r * (1 + u32r) * (B * X0) + 2 * (τ32 * X0) := by ring
    rw [h5]
    have h6 := abs_nonneg (p + q)
    generalize τ32 * X0 = T at *
    rw [hu] at *
    linarith

/-- Growth of the error per sample. -/
abbrev driftU : ℚ := 9 * u32r

theorem unit_step (hS : S.Acc u32r η Ω) {B : ℚ} (hη : η ≤ τ32 * B) (hΩ : 16 * B ≤ Ω) {x x' d : ℚ} (hx : |x| ≤ B) (hx' : |x'| ≤ B)
    (hd : |d| ≤ B) : ∃ y, ((Fl.fin x - Fl.fin (x' + d)) * 1 + Fl.fin x' : Fl S) = Fl.fin y ∧ |y - x| ≤ |d| + driftU * B := by
  have hη0 := hS.hη
  have hB : 0 ≤ B := (abs_nonneg _).trans hx
  have hu : u32r = 1 / 16777216 := by norm_num [u32r]
  have hτ : τ32 = 1 / 2 ^ 50 := by norm_num [τ32]
  have h1 : |x - (x' + d)| ≤ 3 * B := by
    rw [abs_le] at *
    constructor <;> linarith [hx.1, hx.2, hx'.1, hx'.2, hd.1, hd.2]
  have e1 := hS.err (x - (x' + d))
  have a1 : |S.rnd (x - (x' + d))| ≤ |S.rnd (x - (x' + d)) - (x - (x' + d))| + |x - (x' + d)| := by
    have := abs_sub_abs_le_abs_sub (S.rnd (x - (x' + d))) (x - (x' + d))
    linarith
  have f1 : (Fl.fin x - Fl.fin (x' + d) : Fl S) = Fl.fin (S.rnd (x - (x' + d))) := fin_sub hS (by
    rw [hu, hτ] at *
    norm_num at *
    linarith)
  generalize hs : S.rnd (x - (x' + d)) = s at *
  have e2 := hS.err (s * 1)
  have f2 : (Fl.fin s * Fl.fin 1 : Fl S) = Fl.fin (S.rnd (s * 1)) := fin_mul hS (by
    rw [mul_one]
    rw [hu, hτ] at *
    norm_num at *
    linarith)
  rw [mul_one] at e2
  have f2' : (Fl.fin s * 1 : Fl S) = Fl.fin (S.rnd s) := by
    rw [mul_one] at f2
    exact f2
  generalize hp : S.rnd s = p at *
  have e3 := hS.err (p + x')
  have h3 : |p + x'| ≤ |p - s| + |s - (x - (x' + d))| + 2 * B := by
    have e : p + x' = (p - s) + (s - (x - (x' + d))) + (x - d) := by ring
    have h4 : |x - d| ≤ 2 * B := (abs_sub _ _).trans (by linarith)
    calc |p + x'| = |(p - s) + (s - (x - (x' + d))) + (x - d)| := by rw [← e]
      _ ≤ |(p - s) + (s - (x - (x' + d)))| + |x - d| := abs_add_le _ _
      _ ≤ _ := by linarith [abs_add_le (p - s) (s - (x - (x' + d)))]
  have f3 : (Fl.fin p + Fl.fin x' : Fl S) = Fl.fin (S.rnd (p + x')) := fin_add hS (by
    rw [hu, hτ] at *
    norm_num at *
    linarith)
  refine ⟨S.rnd (p + x'), by rw [f1, f2', f3], ?_⟩
  have e : S.rnd (p + x') - x = (S.rnd (p + x') - (p + x')) + ((p - s) + (s - (x - (x' + d)))) - d := by ring
  rw [e]
  have t1 := abs_sub ((S.rnd (p + x') - (p + x')) + ((p - s) + (s - (x - (x' + d))))) d
  have t2 := abs_add_le (S.rnd (p + x') - (p + x')) ((p - s) + (s - (x - (x' + d))))
  have t3 := abs_add_le (p - s) (s - (x - (x' + d)))
  rw [driftU, hu, hτ] at *
  norm_num at *
  linarith

/-- Arithmetic of the IIR stages. -/
structure IirArith (S : Format) {T : Type} [Zero T] [One T] [Add T] [Sub T] [Mul T] [Sample T] (V : T → ℚ → Prop) (η Ω : ℚ) : Prop
    extends SecArith S V η Ω where
  half : ∀ {v w : T} {p q X0 B : ℚ}, V v p → V w q → η ≤ τ32 * X0 → 0 ≤ X0 → 2 ^ 15 * X0 ≤ Ω → B ≤ 2 ^ 11 → |p + q| ≤ B * X0 →
    (∃ y, V ((v + w) * Sample.half) y ∧ |y - (p + q) / 2| ≤ (u32r * (1 + u32r) * B + 2 * τ32) * X0) ∧
    ∃ y, V (Sample.half * (v + w)) y ∧ |y - (p + q) / 2| ≤ (u32r * (1 + u32r) * B + 2 * τ32) * X0
  unit : ∀ {v v' w : T} {x x' d B : ℚ}, V v x → V v' x' → V w (x' + d) → η ≤ τ32 * B → 16 * B ≤ Ω → |x| ≤ B → |x'| ≤ B → |d| ≤ B →
    ∃ y, V ((v - w) * 1 + v') y ∧ |y - x| ≤ |d| + driftU * B

/-- Floating point numbers with one rounding per operation. -/
theorem Fl.iirArith (hS : S.Acc u32r η Ω) : IirArith S (fun (v : Fl S) q => v = Fl.fin q) η Ω where
  hη := hS.hη
  zero := rfl
  uniq h h' := Option.some.inj (h.symm.trans h')
  sec := by
    rintro d v v' w x x' y' X Y ⟨c1, c2⟩ h0 h1 rfl rfl rfl hx hx' hy' hΩ
    obtain ⟨e1, e2⟩ := section_step hS h0 h1 c1 hx hx' hy' hΩ
    refine ⟨_, ?_, e2⟩
    rw [show (Sample.ofDouble d.toRat : Fl S) = Fl.fin (S.rnd d.toRat) from if_pos c2]
    exact e1
  half := by
    rintro v w p q X0 B rfl rfl hη hX0 hΩ hB hpq
    obtain ⟨y, e1, e2⟩ := half_round hS hη hX0 hΩ hB hpq
    have comm : ∀ a b : Fl S, a * b = b * a := by
      intro a b
      cases a <;> cases b <;> try rfl
      exact congrArg (Fl.mk S) (mul_comm _ _)
    exact ⟨⟨y, e1, e2⟩, y, by rw [comm]; exact e1, e2⟩
  unit := by
    rintro v v' w x x' d B rfl rfl rfl hη hΩ hx hx' hd
    exact unit_step hS hη hΩ hx hx' hd

variable {T : Type} [Zero T] [One T] [Add T] [Sub T] [Mul T] [Sample T] {V : T → ℚ → Prop}

/-- A list of samples and the numbers they stand for. -/
def Vals (V : T → ℚ → Prop) (ys : List T) (yq : List ℚ) : Prop := ys.length = yq.length ∧ ∀ n, V (seq ys n) (seq yq n)

theorem exists_vals (h0 : V 0 0) (ys : List T) (h : ∀ n < ys.length, ∃ y, V (seq ys n) y) : ∃ yq : List ℚ, Vals V ys yq := by
  induction ys with
  | nil => exact ⟨[], rfl, fun n => by simpa [seq] using h0⟩
  | cons a l ih =>
    obtain ⟨y, hy⟩ := h 0 (by simp)
    obtain ⟨yq, hl, hq⟩ := ih fun n hn => h (n + 1) (by simpa using hn)
    refine ⟨y :: yq, by simp [hl], fun n => ?_⟩
    cases n with
    | zero => exact hy
    | succ n => exact hq n

theorem vals_fin {ys : List (Fl S)} {yq : List ℚ} : Vals (fun (v : Fl S) q => v = Fl.fin q) ys yq ↔ ys = yq.map fun q => Fl.fin q := by
  constructor
  · rintro ⟨h1, h2⟩
    refine List.ext_getElem (by simpa using h1) fun n h3 h4 => ?_
    have := h2 n
    rw [List.length_map] at h4
    simpa [seq, List.getD_eq_getElem?_getD, h3, h4] using this
  · rintro rfl
    exact ⟨by simp, fun n => seq_fin yq n⟩

/-- One branch. -/
theorem branch_round (hS : SecArith S V η Ω) {t : List Dec} {g w : ℕ → ℚ} (ht : StageBnd t g w) (hco : ∀ d ∈ t, CoefOk S d)
    {b : ℕ} (hb : b < 2) {X0 : ℚ} (hη : η ≤ τ32 * X0) (hΩ : 2 ^ 15 * X0 ≤ Ω) {x : ℕ → ℚ} {xt : ℕ → T} (hv : ∀ n, V (xt n) (x n)) (hx : ∀ n, |x n| ≤ X0) :
    ∃ y : ℕ → ℚ, (∀ n, V (branchOut t.length (seq (t.map fun d => (Sample.ofDouble d.toRat : T))) b xt n) (y n)) ∧
      (∀ n, |y n| ≤ (g b + w b) * X0) ∧
      ∀ (L : ℕ) (r : ℕ → ℚ) (E : ℚ), (∀ k < L, |x k - r k| ≤ E) → ∀ n < L,
        |y n - branchOut t.length (seq (t.map fun d => d.toRat)) b r n| ≤ g b * E + w b * X0 := by
  have hX0 : 0 ≤ X0 := (abs_nonneg _).trans (hx 0)
  have hpos : ∀ d ∈ branchDecs t b, _ := noiseOk_pos (ht.ok b hb)
  obtain ⟨y, y1, y2⟩ := apChain_noise hS (s := levUnit) (by norm_num) levLen hη hΩ (branchDecs t b)
    (fun d hd => hco d (mem_branchDecs hd)) (lev := levInit levUnit levLen) (E := 0) (ht.ok b hb) (pre := [])
    (fun n => (levInit_near (K := ℚ) (by norm_num) levLen n).trans (by simp)) (x := x) (r := x) hv hx
    (fun n => by simp [apChain])
  have hQ : ∀ n, absum (apChain ((branchDecs t b).map Dec.toRat) (impulse : ℕ → ℚ)) n ≤ g b := by
    intro n
    have := apChain_absum (K := ℚ) (s := levUnit) (by norm_num) levLen (coefsNear_exact (branchDecs t b) fun d hd => (hpos d hd).1)
      (fun d hd => (hpos d hd).2) n
    exact (this.trans (le_of_eq (by simp [branchPeak]))).trans (ht.peak b hb)
  have hw : ∀ n, |y n - apChain ((branchDecs t b).map Dec.toRat) x n| ≤ w b * X0 := fun n =>
    (y2 n).trans (mul_le_mul_of_nonneg_right (ht.noise b hb) hX0)
  refine ⟨y, fun n => ?_, fun n => ?_, fun L r E hr n hn => ?_⟩
  · rw [branchOut_eq_apChain t _ b]
    exact y1 n
  · have h1 := hw n
    have h2 : |apChain ((branchDecs t b).map Dec.toRat) x n| ≤ g b * X0 := by
      rw [apChain_eq_conv]
      exact conv_le (hQ _) hX0 fun k _ => hx k
    have h3 := abs_sub_abs_le_abs_sub (y n) (apChain ((branchDecs t b).map Dec.toRat) x n)
    rw [add_mul]
    linarith
  · rw [branchOut_eq_apChain t _ b]
    have h1 := hw n
    have e := congrFun (apChain_add ((branchDecs t b).map Dec.toRat) (fun n => x n - r n) r) n
    simp only [sub_add_cancel] at e
    have e' : apChain ((branchDecs t b).map Dec.toRat) x n = apChain ((branchDecs t b).map Dec.toRat) (fun n => x n - r n) n +
      apChain ((branchDecs t b).map Dec.toRat) r n := e
    have h2 : |apChain ((branchDecs t b).map Dec.toRat) (fun n => x n - r n) n| ≤ g b * E := by
      rw [apChain_eq_conv]
      exact conv_le (hQ _) ((abs_nonneg _).trans (hr n hn)) fun k hk => hr k (by omega)
    have h3 := abs_sub_le (y n) (apChain ((branchDecs t b).map Dec.toRat) x n) (apChain ((branchDecs t b).map Dec.toRat) r n)
    rw [show apChain ((branchDecs t b).map Dec.toRat) x n - apChain ((branchDecs t b).map Dec.toRat) r n =
      apChain ((branchDecs t b).map Dec.toRat) (fun n => x n - r n) n by rw [e']; ring] at h3
    show |y n - apChain ((branchDecs t b).map Dec.toRat) r n| ≤ _
    linarith

/-- What is known about a branch in floating point for its first `N` samples: finite values, bounds `(g + w) X0` for samples up to `X0`,
and the distance from the exact branch. -/
def BranchFacts (V : T → ℚ → Prop) (out : (ℕ → T) → ℕ → T) (ex : (ℕ → ℚ) → ℕ → ℚ) (g w X0 : ℚ) (N : ℕ) : Prop :=
  ∀ (xt : ℕ → T) (x : ℕ → ℚ), (∀ n, V (xt n) (x n)) → (∀ n, |x n| ≤ X0) → ∃ y : ℕ → ℚ, (∀ n < N, V (out xt n) (y n)) ∧
    (∀ n < N, |y n| ≤ (g + w) * X0) ∧
    ∀ (L : ℕ) (r : ℕ → ℚ) (E : ℚ), (∀ k < L, |x k - r k| ≤ E) → ∀ n < L, n < N → |y n - ex r n| ≤ g * E + w * X0

/-- A stage, from facts about its branches. -/
theorem iirStage_round_of (hS : IirArith S V η Ω) {m : Mode} {sse : Bool} {t : List Dec} {g w : ℕ → ℚ} (hbig : ∀ b < 2, g b + w b ≤ 2 ^ 10)
    (hpos : ∀ b < 2, 0 ≤ g b + w b) {X0 : ℚ} (hη : η ≤ τ32 * X0) (hΩ : 2 ^ 15 * X0 ≤ Ω) {N : ℕ}
    (f0 : BranchFacts V (branchOut t.length (seq (t.map fun d => (Sample.ofDouble d.toRat : T))) 0)
      (branchOut t.length (seq (t.map fun d => d.toRat)) 0) (g 0) (w 0) X0 N)
    (f1 : BranchFacts V (iirBranch1 sse t.length (seq (t.map fun d => (Sample.ofDouble d.toRat : T))))
      (branchOut t.length (seq (t.map fun d => d.toRat)) 1) (g 1) (w 1) X0 N)
    {xs : List ℚ} {xt ys : List T} (hv : Vals V xt xs) (h : Stage.Rel (iirStageOf m sse t) xt ys)
    (hN : min xs.length ys.length ≤ N)
    (hx : ∀ n, |seq xs n| ≤ X0) {r : ℕ → ℚ} {E : ℚ} (hE : 0 ≤ E) (hr : ∀ n < xs.length, |seq xs n - r n| ≤ E) :
    ∃ yq : List ℚ, Vals V ys yq ∧
      (∀ n, |seq yq n| ≤ (iirGain m g + iirNoise m g w) * X0) ∧
      ∀ n < yq.length, |seq yq n - (iirStageOf (F := ℚ) m sse t).op r n| ≤ iirGain m g * E + iirNoise m g w * X0 := by
  have hX0 : 0 ≤ X0 := (abs_nonneg _).trans (hx 0)
  -- bounds beyond the end of the list
  have finish : ∀ (yq : List ℚ) (B : ℚ), 0 ≤ B → (∀ n < yq.length, |seq yq n| ≤ B) → ∀ n, |seq yq n| ≤ B := by
    intro yq B hB hyq n
    rcases Nat.lt_or_ge n yq.length with hn | hn
    · exact hyq n hn
    · rw [seq_ge hn, abs_zero]
      exact hB
  have hgw : ∀ b < 2, 0 ≤ (g b + w b) * X0 := fun b hb => mul_nonneg (hpos b hb) hX0
  cases m with
  | up =>
    obtain ⟨y0, a1, a2, a3⟩ := f0 _ _ hv.2 hx
    obtain ⟨y1, b1, b2, b3⟩ := f1 _ _ hv.2 hx
    obtain ⟨hl, hr'⟩ : ys.length = 2 * xt.length ∧ _ := h
    have hlx := hv.1
    have val : ∀ n < ys.length, V (seq ys n) (if n % 2 = 0 then y0 (n / 2) else y1 (n / 2)) := by
      intro n hn
      obtain ⟨c1, c2⟩ := hr' (n / 2) (by omega)
      rw [List.length_map] at c1 c2
      rcases Nat.mod_two_eq_zero_or_one n with h0 | h0
      · rw [if_pos h0]
        rw [show 2 * (n / 2) = n by omega] at c1
        rw [c1]
        exact a1 _ (by omega)
      · rw [if_neg (by omega)]
        rw [show 2 * (n / 2) + 1 = n by omega] at c2
        rw [c2]
        exact b1 _ (by omega)
    obtain ⟨yq, hyq⟩ := exists_vals hS.zero ys fun n hn => ⟨_, val n hn⟩
    have hly := hyq.1
    have val' : ∀ n < yq.length, seq yq n = if n % 2 = 0 then y0 (n / 2) else y1 (n / 2) := by
      intro n hn
      exact hS.uniq (hyq.2 n) (val n (by omega))
    have hnN : ∀ n < yq.length, n / 2 < N := by
      intro n hn
      omega
    have hmax : ∀ b < 2, (g b + w b) * X0 ≤ (iirGain .up g + iirNoise .up g w) * X0 := by
      intro b hb
      refine mul_le_mul_of_nonneg_right ?_ hX0
      unfold iirGain iirNoise
      rcases (show b = 0 ∨ b = 1 by omega) with rfl | rfl
      · exact add_le_add (le_max_left _ _) (le_max_left _ _)
      · exact add_le_add (le_max_right _ _) (le_max_right _ _)
    refine ⟨yq, hyq, finish _ _ ((hgw 0 (by omega)).trans (hmax 0 (by omega))) fun n hn => ?_, fun n hn => ?_⟩
    · rw [val' n hn]
      split
      · exact (a2 _ (hnN n hn)).trans (hmax 0 (by omega))
      · exact (b2 _ (hnN n hn)).trans (hmax 1 (by omega))
    · rw [val' n hn]
      have e : (iirStageOf (F := ℚ) .up sse t).op r n = branchOut t.length (seq (t.map fun d => d.toRat)) (n % 2) r (n / 2) := by
        simp only [iirStageOf, Stage.op, iirUpOp, List.length_map]
        rfl
      rw [e]
      have hm : ∀ b < 2, g b * E + w b * X0 ≤ iirGain .up g * E + iirNoise .up g w * X0 := by
        intro b hb
        unfold iirGain iirNoise
        rcases (show b = 0 ∨ b = 1 by omega) with rfl | rfl
        · exact add_le_add (mul_le_mul_of_nonneg_right (le_max_left _ _) hE) (mul_le_mul_of_nonneg_right (le_max_left _ _) hX0)
        · exact add_le_add (mul_le_mul_of_nonneg_right (le_max_right _ _) hE) (mul_le_mul_of_nonneg_right (le_max_right _ _) hX0)
      rcases Nat.mod_two_eq_zero_or_one n with h0 | h0
      · rw [if_pos h0, h0]
        exact (a3 xs.length r E hr _ (by omega) (hnN n hn)).trans (hm 0 (by omega))
      · rw [if_neg (by omega), h0]
        exact (b3 xs.length r E hr _ (by omega) (hnN n hn)).trans (hm 1 (by omega))
  | down =>
    obtain ⟨y0, a1, a2, a3⟩ := f0 (odds (seq xt)) (odds (seq xs)) (fun n => hv.2 _) fun n => hx _
    obtain ⟨y1, b1, b2, b3⟩ := f1 (evens (seq xt)) (evens (seq xs)) (fun n => hv.2 _) fun n => hx _
    obtain ⟨hl, hr'⟩ : xt.length = 2 * ys.length ∧ _ := h
    have hlx := hv.1
    have hB : (g 0 + w 0 + (g 1 + w 1)) ≤ 2 ^ 11 := by
      have h0 := hbig 0 (by omega)
      have h1 := hbig 1 (by omega)
      linarith
    have val : ∀ n < ys.length, ∃ y, V (seq ys n) y ∧
        |y - (y0 n + y1 n) / 2| ≤ (u32r * (1 + u32r) * (g 0 + w 0 + (g 1 + w 1)) + 2 * τ32) * X0 := by
      intro n hn
      have c := hr' n hn
      simp only [List.length_map] at c
      have hs : |y0 n + y1 n| ≤ (g 0 + w 0 + (g 1 + w 1)) * X0 := by
        rw [add_mul]
        exact (abs_add_le _ _).trans (add_le_add (a2 n (by omega)) (b2 n (by omega)))
      rw [c]
      cases sse with
      | true =>
        rw [if_pos rfl]
        obtain ⟨y, e1, e2⟩ := (hS.half (b1 n (by omega)) (a1 n (by omega)) hη hX0 hΩ hB (by rwa [add_comm])).1
        refine ⟨y, e1, ?_⟩
        rwa [add_comm (y0 n)]
      | false =>
        rw [if_neg (by simp)]
        exact (hS.half (a1 n (by omega)) (b1 n (by omega)) hη hX0 hΩ hB hs).2
    obtain ⟨yq, hyq⟩ := exists_vals hS.zero ys fun n hn => (val n hn).imp fun _ h => h.1
    have hly := hyq.1
    have val' : ∀ n < yq.length, |seq yq n - (y0 n + y1 n) / 2| ≤ (u32r * (1 + u32r) * (g 0 + w 0 + (g 1 + w 1)) + 2 * τ32) * X0 := by
      intro n hn
      obtain ⟨y, e1, e2⟩ := val n (by omega)
      rwa [hS.uniq (hyq.2 n) e1]
    have hnN : ∀ n < yq.length, n < N := by
      intro n hn
      omega
    have tot : (iirGain .down g + iirNoise .down g w) * X0 =
        ((g 0 + w 0) * X0 + (g 1 + w 1) * X0) / 2 + (u32r * (1 + u32r) * (g 0 + w 0 + (g 1 + w 1)) + 2 * τ32) * X0 := by
      unfold iirGain iirNoise
      ring
    have bnd : ∀ n < yq.length, |seq yq n| ≤ (iirGain .down g + iirNoise .down g w) * X0 := by
      intro n hn
      rw [tot]
      have h1 := val' n hn
      have h2 := abs_sub_abs_le_abs_sub (seq yq n) ((y0 n + y1 n) / 2)
      have h3 : |(y0 n + y1 n) / 2| ≤ ((g 0 + w 0) * X0 + (g 1 + w 1) * X0) / 2 := by
        rw [abs_div, abs_of_pos (show (0 : ℚ) < 2 by norm_num)]
        have := (abs_add_le _ _).trans (add_le_add (a2 n (hnN n hn)) (b2 n (hnN n hn)))
        linarith
      linarith
    refine ⟨yq, hyq, finish _ _ ?_ bnd, fun n hn => ?_⟩
    · rw [tot]
      have h0 := hgw 0 (by omega)
      have h1 := hgw 1 (by omega)
      have h2 : 0 ≤ (g 0 + w 0 + (g 1 + w 1)) * X0 := by rw [add_mul]; linarith
      have h3 : (u32r * (1 + u32r) * (g 0 + w 0 + (g 1 + w 1)) + 2 * τ32) * X0 =
        u32r * (1 + u32r) * ((g 0 + w 0 + (g 1 + w 1)) * X0) + 2 * τ32 * X0 := by ring
      rw [h3]
      have : 0 ≤ 2 * τ32 * X0 := by positivity
      positivity
    · have e : (iirStageOf (F := ℚ) .down sse t).op r n = (branchOut t.length (seq (t.map fun d => d.toRat)) 0 (odds r) n +
          branchOut t.length (seq (t.map fun d => d.toRat)) 1 (evens r) n) / 2 := by
        simp only [iirStageOf, Stage.op, iirDownOp, List.length_map]
        show 1 / 2 * _ = _
        rw [one_div, inv_mul_eq_div]
        rfl
      rw [e]
      have h0 := a3 yq.length (odds r) E (fun k hk => hr (2 * k + 1) (by omega)) n hn (hnN n hn)
      have h1 := b3 yq.length (evens r) E (fun k hk => hr (2 * k) (by omega)) n hn (hnN n hn)
      have h2 := val' n hn
      rw [abs_le] at *
      have tot' : iirGain .down g * E + iirNoise .down g w * X0 =
        ((g 0 * E + w 0 * X0) + (g 1 * E + w 1 * X0)) / 2 + (u32r * (1 + u32r) * (g 0 + w 0 + (g 1 + w 1)) + 2 * τ32) * X0 := by
        unfold iirGain iirNoise
        ring
      rw [tot']
      constructor <;> linarith [h0.1, h0.2, h1.1, h1.2, h2.1, h2.2]

theorem iirStage_round (hS : IirArith S V η Ω) {m : Mode} {sse : Bool} {t : List Dec} {g w : ℕ → ℚ} (ht : StageBnd t g w)
    (hco : ∀ d ∈ t, CoefOk S d) (hsse : sse = true → t.length % 2 = 0) {X0 : ℚ} (hη : η ≤ τ32 * X0) (hΩ : 2 ^ 15 * X0 ≤ Ω)
    {xs : List ℚ} {xt ys : List T} (hv : Vals V xt xs) (h : Stage.Rel (iirStageOf m sse t) xt ys)
    (hx : ∀ n, |seq xs n| ≤ X0) {r : ℕ → ℚ} {E : ℚ} (hE : 0 ≤ E) (hr : ∀ n < xs.length, |seq xs n - r n| ≤ E) :
    ∃ yq : List ℚ, Vals V ys yq ∧
      (∀ n, |seq yq n| ≤ (iirGain m g + iirNoise m g w) * X0) ∧
      ∀ n < yq.length, |seq yq n - (iirStageOf (F := ℚ) m sse t).op r n| ≤ iirGain m g * E + iirNoise m g w * X0 := by
  have hX0 : 0 ≤ X0 := (abs_nonneg _).trans (hx 0)
  have hb1 : ∀ x : ℕ → T, iirBranch1 sse t.length (seq (t.map fun d => (Sample.ofDouble d.toRat : T))) x =
      branchOut t.length (seq (t.map fun d => (Sample.ofDouble d.toRat : T))) 1 x := by
    intro x
    unfold iirBranch1
    rw [if_neg]
    rintro ⟨h1, h2⟩
    have := hsse h1
    omega
  have facts : ∀ b < 2, BranchFacts V (branchOut t.length (seq (t.map fun d => (Sample.ofDouble d.toRat : T))) b)
      (branchOut t.length (seq (t.map fun d => d.toRat)) b) (g b) (w b) X0 (min xs.length ys.length) := by
    intro b hb xt x hv hx
    obtain ⟨y, h1, h2, h3⟩ := branch_round hS.toSecArith ht hco hb hη hΩ hv hx
    exact ⟨y, fun n _ => h1 n, fun n _ => h2 n, fun L r E hr n hn _ => h3 L r E hr n hn⟩
  refine iirStage_round_of hS ht.big (fun b hb => ?_) hη hΩ (facts 0 (by omega)) ?_ hv h le_rfl hx hE hr
  · have h1 := ht.hw b hb
    have h2 : 0 ≤ branchPeak t b := by
      have := apChain_absum (K := ℚ) (s := levUnit) (by norm_num) levLen (coefsNear_exact (branchDecs t b) fun d hd => (noiseOk_pos (ht.ok b hb) d hd).1)
        (fun d hd => (noiseOk_pos (ht.ok b hb) d hd).2) 0
      exact (absum_nonneg _ _).trans (this.trans (le_of_eq (by simp [branchPeak])))
    linarith [ht.peak b hb]
  · have := facts 1 (by omega)
    rwa [show iirBranch1 sse t.length (seq (t.map fun d => (Sample.ofDouble d.toRat : T))) =
      branchOut t.length (seq (t.map fun d => (Sample.ofDouble d.toRat : T))) 1 from funext hb1]

/-- Peak gain of the branches in units of `10^-5`: stage, precision, branch. -/
def branchGainLit : ℕ → ℕ → ℕ → ℕ
  | 2, 8, 0 => 266825
  | 2, 8, 1 => 188919
  | 2, 12, 0 => 308130
  | 2, 12, 1 => 246453
  | 2, 16, 0 => 258196
  | 2, 16, 1 => 335083
  | 2, 20, 0 => 302928
  | 2, 20, 1 => 369252
  | 2, 24, 0 => 372874
  | 2, 24, 1 => 324096
  | 4, 8, 0 => 125130
  | 4, 8, 1 => 212828
  | 4, 12, 0 => 239913
  | 4, 12, 1 => 153041
  | 4, 16, 0 => 239913
  | 4, 16, 1 => 153041
  | 4, 20, 0 => 180692
  | 4, 20, 1 => 257162
  | 4, 24, 0 => 265692
  | 4, 24, 1 => 205809
  | 8, 8, 0 => 168421
  | 8, 8, 1 => 100000
  | 8, 12, 0 => 122021
  | 8, 12, 1 => 207282
  | 8, 16, 0 => 122021
  | 8, 16, 1 => 207282
  | 8, 20, 0 => 234688
  | 8, 20, 1 => 147910
  | 8, 24, 0 => 234688
  | 8, 24, 1 => 147910
  | _, _, _ => 0

/-- Rounding errors of the branches in units of `10^-12`: stage, precision, branch. -/
def branchNoiseLit : ℕ → ℕ → ℕ → ℕ
  | 2, 8, 0 => 4536398
  | 2, 8, 1 => 658711
  | 2, 12, 0 => 10805940
  | 2, 12, 1 => 2361919
  | 2, 16, 0 => 3741431
  | 2, 16, 1 => 15028056
  | 2, 20, 0 => 7605370
  | 2, 20, 1 => 24808318
  | 2, 24, 0 => 30377348
  | 2, 24, 1 => 9990509
  | 4, 8, 0 => 145304
  | 4, 8, 1 => 1102084
  | 4, 12, 0 => 2114840
  | 4, 12, 1 => 298859
  | 4, 16, 0 => 2114840
  | 4, 16, 1 => 298859
  | 4, 20, 0 => 649832
  | 4, 20, 1 => 3230722
  | 4, 24, 0 => 4724483
  | 4, 24, 1 => 1014062
  | 8, 8, 0 => 423380
  | 8, 8, 1 => 0
  | 8, 12, 0 => 132473
  | 8, 12, 1 => 976249
  | 8, 16, 0 => 132473
  | 8, 16, 1 => 976249
  | 8, 20, 0 => 1882358
  | 8, 20, 1 => 264570
  | 8, 24, 0 => 1882358
  | 8, 24, 1 => 264570
  | _, _, _ => 0

/-! ## Cascades -/

/-- `branchGainLit` as a number. -/
def iirG (k p b : ℕ) : ℚ := (branchGainLit k p b : ℚ) / 10 ^ 5

/-- `branchNoiseLit` as a number. -/
def iirW (k p b : ℕ) : ℚ := (branchNoiseLit k p b : ℚ) / 10 ^ 12

/-- Coefficients of a stage. -/
def iirDecs (k p : ℕ) : List Dec := ((iirTable k p).getD ([], ⟨0, 0⟩)).1

theorem stageBnd_tables : ∀ k ∈ [2, 4, 8], ∀ p ∈ [8, 12, 16, 20, 24], ∀ b < 2,
    branchOk (iirDecs k p) b = true ∧ branchPeak (iirDecs k p) b ≤ iirG k p b ∧ branchNoise (iirDecs k p) b ≤ iirW k p b ∧
    0 ≤ iirW k p b ∧ iirG k p b + iirW k p b ≤ 2 ^ 10 := by
  decide +kernel

theorem stageBnd_tab {k p : ℕ} (hk : k ∈ [2, 4, 8]) (hp : p ∈ [8, 12, 16, 20, 24]) : StageBnd (iirDecs k p) (iirG k p) (iirW k p) :=
  have h := stageBnd_tables k hk p hp
  ⟨fun b hb => (h b hb).1, fun b hb => (h b hb).2.1, fun b hb => (h b hb).2.2.1, fun b hb => (h b hb).2.2.2.1, fun b hb => (h b hb).2.2.2.2⟩

/-- The factors the signal passes. -/
def Config.rates (cfg : Config) : List ℕ :=
  match cfg.mode with
  | .up => [2, 4, 8].filter (· ≤ cfg.ratio)
  | .down => [8, 4, 2].filter (· ≤ cfg.ratio)

theorem Config.mem_rates {cfg : Config} {k : ℕ} (h : k ∈ cfg.rates) : k ∈ [2, 4, 8] ∧ k ≤ cfg.ratio := by
  unfold Config.rates at h
  cases hm : cfg.mode <;> simp only [hm, List.mem_filter, decide_eq_true_eq] at h <;> refine ⟨?_, h.2⟩ <;> have := h.1 <;>
    simp only [List.mem_cons, List.not_mem_nil, or_false] at this ⊢ <;> omega

theorem Config.stages_eq_iirTabs {F : Type} [Sample F] {cfg : Config} (hv : cfg.Valid) (hf : cfg.filter = .iir) :
    cfg.stages (F := F) = cfg.rates.map fun k => iirStageOf cfg.mode cfg.iirSse (iirDecs k cfg.precision) := by
  have key : ∀ k ∈ [2, 4, 8], cfg.stage (F := F) k = [iirStageOf cfg.mode cfg.iirSse (iirDecs k cfg.precision)] := by
    intro k hk
    obtain ⟨t, ht⟩ := Option.isSome_iff_exists.1 ((tables_exist hk hv.precision).2 (hv.iir hf))
    unfold Config.stage iirDecs
    rw [hf, ht]
    cases cfg.mode <;> rfl
  have gen : ∀ l : List ℕ, (∀ k ∈ l, k ∈ [2, 4, 8]) → (l.map (cfg.stage (F := F))).flatten =
      l.map fun k => iirStageOf cfg.mode cfg.iirSse (iirDecs k cfg.precision) := by
    intro l hl
    induction l with
    | nil => rfl
    | cons a l ih =>
      simp only [List.map_cons, List.flatten_cons]
      rw [ih fun k hk => hl k (by simp [hk]), key a (hl a (by simp))]
      rfl
  unfold Config.stages Config.rates
  cases hm : cfg.mode <;> simp only <;> rw [gen, hm] <;> intro k hk <;> simp only [List.mem_filter] at hk <;>
    have := hk.1 <;> simp only [List.mem_cons, List.not_mem_nil, or_false] at this ⊢ <;> omega

/-- Effect of a stage on the bounds for signal and error. -/
def iirStep (m : Mode) (p : ℕ) (s : ℚ × ℚ) (k : ℕ) : ℚ × ℚ :=
  ((iirGain m (iirG k p) + iirNoise m (iirG k p) (iirW k p)) * s.1,
    iirGain m (iirG k p) * s.2 + iirNoise m (iirG k p) (iirW k p) * s.1)

/-- Conditions on the bounds. -/
def iirFits (m : Mode) (p : ℕ) : List ℕ → ℚ × ℚ → Bool
  | [], _ => true
  | k :: ks, s => decide (1 ≤ s.1 ∧ s.1 ≤ 2 ^ 10 ∧ 0 ≤ s.2) && iirFits m p ks (iirStep m p s k)

theorem iir_cascade_round (hS : IirArith S V η Ω) {m : Mode} {sse : Bool} {p : ℕ} (hp : p ∈ [8, 12, 16, 20, 24]) {M : ℚ} (hM : 0 ≤ M)
    (hη : η ≤ τ32 * M) (hΩ : 2 ^ 25 * M ≤ Ω) (ks : List ℕ) (hks : ∀ k ∈ ks, k ∈ [2, 4, 8])
    (hco : ∀ k ∈ ks, ∀ d ∈ iirDecs k p, CoefOk S d) (hsse : sse = true → ∀ k ∈ ks, (iirDecs k p).length % 2 = 0)
    (s : ℚ × ℚ) (hfit : iirFits m p ks s = true)
    {xs : List ℚ} {xt zs : List T} (hv : Vals V xt xs) (h : CascadeRel (ks.map fun k => iirStageOf m sse (iirDecs k p)) xt zs)
    (hx : ∀ n, |seq xs n| ≤ s.1 * M) {r : ℕ → ℚ} (hr : ∀ n < xs.length, |seq xs n - r n| ≤ s.2 * M) :
    ∃ zq : List ℚ, Vals V zs zq ∧ (∀ n, |seq zq n| ≤ (ks.foldl (iirStep m p) s).1 * M) ∧
      ∀ n < zq.length, |seq zq n - cascadeOp (ks.map fun k => iirStageOf (F := ℚ) m sse (iirDecs k p)) r n| ≤
        (ks.foldl (iirStep m p) s).2 * M := by
  induction ks generalizing s xs xt r with
  | nil =>
    have h : zs = xt := h
    exact ⟨xs, h ▸ hv, hx, hr⟩
  | cons k ks ih =>
    obtain ⟨ys, h1, h2⟩ := h
    rw [iirFits, Bool.and_eq_true, decide_eq_true_eq] at hfit
    obtain ⟨⟨f1, f2, f3⟩, f4⟩ := hfit
    have hMM : M ≤ s.1 * M := by nlinarith
    obtain ⟨yq, hyq, y1, y2⟩ := iirStage_round hS (stageBnd_tab (hks k (by simp)) hp) (hco k (by simp))
      (fun hs => hsse hs k (by simp)) (X0 := s.1 * M)
      (hη.trans (mul_le_mul_of_nonneg_left hMM (by positivity))) (by
        have : s.1 * M ≤ 2 ^ 10 * M := mul_le_mul_of_nonneg_right f2 hM
        norm_num at hΩ this ⊢
        linarith) hv h1 hx (mul_nonneg f3 hM) hr
    have e1 : (iirGain m (iirG k p) + iirNoise m (iirG k p) (iirW k p)) * (s.1 * M) = (iirStep m p s k).1 * M := by
      simp only [iirStep]; ring
    have e2 : iirGain m (iirG k p) * (s.2 * M) + iirNoise m (iirG k p) (iirW k p) * (s.1 * M) = (iirStep m p s k).2 * M := by
      simp only [iirStep]; ring
    rw [e1] at y1
    rw [e2] at y2
    exact ih (fun k hk => hks k (by simp [hk])) (fun k hk => hco k (by simp [hk])) (fun hs k hk => hsse hs k (by simp [hk])) _ f4 hyq h2 y1 y2

section exact

variable {K : Type} [Field K] [LinearOrder K] [IsStrictOrderedRing K] [Sample K] [Accurate K]

theorem coef_near {k p : ℕ} (hk : k ∈ [2, 4, 8]) (hp : p ∈ [8, 12, 16, 20, 24]) :
    ∀ d ∈ iirDecs k p, 0 ≤ (Sample.ofDouble d.toRat : K) ∧ |(Sample.ofDouble d.toRat : K) - (d.toRat : K)| ≤ (κ24 : K) := by
  intro d hd
  obtain ⟨h0, h1⟩ := iirTable_coefs k hk p hp d hd
  have ha := Accurate.ofDouble (K := K) d.toRat
  have h0' : (0 : K) < ((d.toRat : ℚ) : K) := by exact_mod_cast h0
  have h1' : ((d.toRat : ℚ) : K) ≤ 1 := by
    have : d.toRat ≤ 1 := h1.trans (by norm_num)
    exact_mod_cast this
  rw [abs_of_pos h0'] at ha
  have hκ : ((κ24 : ℚ) : K) = 2⁻¹ ^ 24 := by push_cast; rfl
  rw [hκ]
  refine ⟨?_, ha.trans ?_⟩
  · have := (abs_le.1 ha).1
    norm_num at this
    linarith
  · norm_num
    linarith

theorem iirStage_peak {m : Mode} {sse : Bool} {k p : ℕ} (hk : k ∈ [2, 4, 8]) (hp : p ∈ [8, 12, 16, 20, 24]) {x : ℕ → K} {M : K} (hM : 0 ≤ M)
    (hx : ∀ n, |x n| ≤ M) (n : ℕ) : |(iirStageOf (F := K) m sse (iirDecs k p)).op x n| ≤ (iirGain m (iirG k p) : K) * M := by
  have hb : ∀ b < 2, ∀ (y : ℕ → K), (∀ n, |y n| ≤ M) → ∀ n,
      |branchOut (iirDecs k p).length (seq ((iirDecs k p).map fun d => (Sample.ofDouble d.toRat : K))) b y n| ≤ (iirG k p b : K) * M :=
    fun b hb y hy n => branch_peak (stageBnd_tab hk hp) (coef_near hk hp) hb hM fun k _ => hy k
  cases m with
  | up =>
    simp only [iirStageOf, Stage.op, iirUpOp, List.length_map]
    have hlt : n % 2 < 2 := Nat.mod_lt _ (by omega)
    refine (hb (n % 2) hlt x hx _).trans (mul_le_mul_of_nonneg_right ?_ hM)
    unfold iirGain
    have : iirG k p (n % 2) ≤ max (iirG k p 0) (iirG k p 1) := by
      rcases Nat.mod_two_eq_zero_or_one n with h | h <;> rw [h]
      · exact le_max_left _ _
      · exact le_max_right _ _
    exact_mod_cast this
  | down =>
    simp only [iirStageOf, Stage.op, iirDownOp, List.length_map]
    rw [Accurate.half]
    have h0 := hb 0 (by omega) (odds x) (fun n => hx _) n
    have h1 := hb 1 (by omega) (evens x) (fun n => hx _) n
    rw [abs_mul, abs_of_pos (show (0 : K) < 1 / 2 by norm_num)]
    have h2 := (abs_add_le _ _).trans (add_le_add h0 h1)
    have e : ((iirGain .down (iirG k p) : ℚ) : K) * M = 1 / 2 * ((iirG k p 0 : K) * M + (iirG k p 1 : K) * M) := by
      unfold iirGain
      push_cast
      ring
    rw [e]
    exact mul_le_mul_of_nonneg_left h2 (by norm_num)

theorem iir_cascade_peak {m : Mode} {sse : Bool} {p : ℕ} (hp : p ∈ [8, 12, 16, 20, 24]) (ks : List ℕ) (hks : ∀ k ∈ ks, k ∈ [2, 4, 8])
    {x : ℕ → K} {M : K} (hM : 0 ≤ M) (hx : ∀ n, |x n| ≤ M) (n : ℕ) :
    |cascadeOp (ks.map fun k => iirStageOf (F := K) m sse (iirDecs k p)) x n| ≤ ((ks.map fun k => iirGain m (iirG k p)).prod : ℚ) * M := by
  induction ks generalizing x M with
  | nil => simpa [cascadeOp] using hx n
  | cons k ks ih =>
    have h := ih (fun k hk => hks k (by simp [hk])) ((abs_nonneg _).trans (iirStage_peak (m := m) (sse := sse) (hks k (by simp)) hp hM hx 0))
      (iirStage_peak (m := m) (sse := sse) (hks k (by simp)) hp hM hx)
    simp only [List.map_cons, List.prod_cons, cascadeOp]
    refine h.trans (le_of_eq ?_)
    push_cast
    ring

end exact

end Panda
