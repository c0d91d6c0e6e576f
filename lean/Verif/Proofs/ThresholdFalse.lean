import Verif.Proofs.Threshold

/-!
# Sinusoids that are resampled less accurately than the tests demand
-/

namespace Panda

/-- A sinusoid: cosine and sine of the angle per half step of the filter's input, cosine and sine of the phase. -/
structure Wave where
  s : ℚ
  c : ℚ
  c0 : ℚ
  s0 : ℚ

/-- The values of the sinusoid. -/
def Wave.at (W : Wave) (e : ℤ) : ℚ := ratTone W.s W.c W.c0 W.s0 e

/-- Rounded to `float`. -/
def Wave.at32 (W : Wave) (e : ℤ) : F32 := Fl.fin (rnd32 (W.at e))

/-- The dot product in the evaluation orders of `FirVal`. -/
def Wave.dot (W : Wave) (t : List F32) : Option ℕ → F32
  | none => firScalar (fun i => W.at32 (2 * i - (t.length - 1 : ℕ))) (seq t) t.length
  | some k => firVector (fun i => W.at32 (2 * ((i : ℤ) - k) - (t.length - 1 : ℕ))) (seq t) t.length k

/-- A number that is more than `T` off. -/
def offBy (v : F32) (c T : ℚ) : Bool :=
  match v with
  | some y => decide (T < |y - c|)
  | none => false

theorem offBy_iff {v : F32} {c T : ℚ} (h : offBy v c T = true) : ∃ y, v = Fl.fin y ∧ T < |y - c| := by
  match v, h with
  | some y, h => exact ⟨y, rfl, of_decide_eq_true h⟩

def up20 : Wave := ⟨76788 / 242437, 229955 / 242437, 112808 / 112817, 1425 / 112817⟩
def up24 : Wave := ⟨56 / 65, 33 / 65, 47124 / 47125, 307 / 47125⟩
def down20 : Wave := ⟨274089 / 865961, 821440 / 865961, 121524 / 121525, 493 / 121525⟩

/-- The witnesses. -/
def thrWave : Mode → ℕ → Wave
  | .up, 20 => up20
  | .down, 20 => down20
  | _, _ => up24

/-- Slightly more than the threshold. -/
def thrRat : Mode → ℕ → ℚ
  | .up, 20 => 21135 / 10 ^ 10
  | .down, 20 => 10593 / 10 ^ 10
  | .up, _ => 6310 / 10 ^ 10
  | .down, _ => 3163 / 10 ^ 10

/-- The taps. -/
def thrTaps : Mode → ℕ → List F32
  | .up, p => (tab 2 p).map fun d => Sample.ofDouble (d.toRat * 2)
  | .down, p => (tab 2 p).map fun d => Sample.ofDouble (d.toRat * 1)

/-- The output. -/
def thrOut (m : Mode) (p : ℕ) (o : Option ℕ) : F32 :=
  match m with
  | .up => (thrWave m p).dot (thrTaps m p) o
  | .down => (thrWave m p).dot (thrTaps m p) o + Sample.half * (thrWave m p).at32 0

theorem thr_check : ∀ m ∈ [Mode.up, Mode.down], (∀ o ∈ [none, some 0, some 1, some 2, some 3],
    offBy (thrOut m 20 o) (thrWave m 20).c0 (thrRat m 20) = true) ∧ offBy (thrOut m 24 none) (thrWave m 24).c0 (thrRat m 24) = true := by
  decide +kernel

theorem thr_level : ∀ m ∈ [Mode.up, Mode.down], 1 ≤ thrRat m 20 ^ 40 * 10 ^ testDb2 true m 20 ∧
    1 ≤ thrRat m 20 ^ 40 * 10 ^ testDb2 false m 20 ∧ 1 ≤ thrRat m 24 ^ 40 * 10 ^ testDb2 false m 24 := by decide +kernel

theorem thr_wave : ∀ m ∈ [Mode.up, Mode.down], ∀ p ∈ [20, 24], (thrWave m p).s ^ 2 + (thrWave m p).c ^ 2 = 1 ∧
    (thrWave m p).c0 ^ 2 + (thrWave m p).s0 ^ 2 = 1 ∧ 289 / 1000 ≤ (thrWave m p).s ∧ 0 ≤ (thrWave m p).c ∧ 0 ≤ (thrWave m p).c0 ∧
    0 ≤ (thrWave m p).s0 ∧ (tab 2 p).length < 60 ∧ 0 ≤ thrRat m p ∧ (tab 2 p).length % 2 = 0 ∧ 2 ≤ (tab 2 p).length := by decide +kernel

end Panda
