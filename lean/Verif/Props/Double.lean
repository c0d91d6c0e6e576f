import Verif.Model.Double
import Verif.Proofs.Query
import Verif.Props.Common

/-!
# C73, C74: constants and delays in `double`

The model takes the constants of the source as exact rational numbers which are rounded once, and the result of `delay()` as a rational
number. The code goes through `double`. These theorems say how much that matters: not at all, and at most `10 ^ -14`.
-/

namespace Panda

open Examples

/-- All FIR tables. -/
private def firTabs : List (List Dec) :=
  [fir2x24, fir4x24, fir8x24, fir2x20, fir4x20, fir8x20, fir2x16, fir4x16, fir8x16, fir2x12, fir4x12, fir8x12, fir2x8, fir4x8, fir8x8, firLinear]

private theorem mem_firTabs {k p : ℕ} {tab : List Dec} (h : firTable k p = some tab) : tab ∈ firTabs := by
  have key : ∀ {c : Prop} [Decidable c] {a : List Dec} {o : Option (List Dec)}, (if c then some a else o) = some tab → tab = a ∨ o = some tab := by
    intro c _ a o h
    split_ifs at h
    · exact Or.inl (Option.some.inj h).symm
    · exact Or.inr h
  unfold firTable at h
  unfold firTabs
  iterate 16
    rcases key h with h | h
    · subst h
      simp only [List.mem_cons, true_or, or_true]
  exact absurd h (by simp)

/-- All IIR tables. -/
private def iirTabs' : List (List Dec) :=
  [iir2x8, iir4x8, iir8x8, iir2x12, iir4x12, iir8x12, iir2x16, iir4x16, iir8x16, iir2x20, iir4x20, iir8x20, iir2x24, iir4x24, iir8x24]

private theorem mem_iirTabs {k p : ℕ} {t : List Dec × Dec} (h : iirTable k p = some t) : t.1 ∈ iirTabs' := by
  have key : ∀ {c : Prop} [Decidable c] {a : List Dec × Dec} {o : Option (List Dec × Dec)}, (if c then some a else o) = some t →
      t = a ∨ o = some t := by
    intro c _ a o h
    split_ifs at h
    · exact Or.inl (Option.some.inj h).symm
    · exact Or.inr h
  unfold iirTable at h
  unfold iirTabs'
  iterate 15
    rcases key h with h | h
    · subst h
      simp only [List.mem_cons, true_or, or_true]
  exact absurd h (by simp)

private theorem fir_all : ∀ tab ∈ firTabs, ∀ c ∈ tab, ∀ s ∈ [1, 2], firTap64 c s = (Sample.ofDouble (c.toRat * ((s : ℕ) : ℚ)) : Fl binary32) := by
  decide +kernel

private theorem iir_all : ∀ tab ∈ iirTabs', ∀ c ∈ tab, iirCoef64 c = (Sample.ofDouble c.toRat : Fl binary32) := by
  decide +kernel

/-- **C73** FIR coefficients: reading the literal as `double`, multiplying it by 2.0 or 1.0 in `double` and storing it in a `float` gives the
`float` next to the exact product: the two roundings are one. -/
theorem C73_fir_taps {k p : ℕ} {tab : List Dec} (h : firTable k p = some tab) {c : Dec} (hc : c ∈ tab) {s : ℕ} (hs : s = 1 ∨ s = 2) :
    firTap64 c s = (Sample.ofDouble (c.toRat * s) : Fl binary32) :=
  fir_all tab (mem_firTabs h) c hc s (by rcases hs with rfl | rfl <;> simp)

/-- **C73** IIR coefficients: the `float` which `set_coefs` stores is the one next to the literal. -/
theorem C73_iir_coefs {k p : ℕ} {t : List Dec × Dec} (h : iirTable k p = some t) {c : Dec} (hc : c ∈ t.1) :
    iirCoef64 c = (Sample.ofDouble c.toRat : Fl binary32) := iir_all t.1 (mem_iirTabs h) c hc

/-- The first coefficient of the FIR table for ratio 8 and 8 bits as `float`, and a number for which two roundings are not one. -/
example : firTap64 ⟨-37276258261764332, 18⟩ 2 = Fl.fin (-10006269 / 134217728) ∧
    toFloat (Fl.mk binary64 (1 + 1 / 2 ^ 24 + 1 / 2 ^ 60)) ≠ Fl.mk binary32 (1 + 1 / 2 ^ 24 + 1 / 2 ^ 60) := by
  decide +kernel

/-- The claim of C74 for one configuration -/
private def delayOk (m : Mode) (f : Filter) (r p : ℕ) : Bool :=
  match delay64 m f r p with
  | some v => decide (|v - (cfg m r p true f).totalDelay| ≤ 1 / 10 ^ 14) && (decide (f = .iir) || decide (v = (cfg m r p true f).totalDelay))
  | none => false

private theorem delay_all : ∀ m ∈ [Mode.up, Mode.down], ∀ f ∈ [Filter.fir, Filter.iir], ∀ r ∈ [1, 2, 4, 8], ∀ p ∈ [1, 8, 12, 16, 20, 24],
    (f = .iir → p ≠ 1) → delayOk m f r p = true := by
  decide +kernel

/-- **C74** `delay()`, computed in `double`, differs from the exact value by at most `10 ^ -14`; for FIR filters it is exact. -/
theorem C74_delay_double {F : Type} [Zero F] [One F] [Add F] [Sub F] [Mul F] [Sample F] (cfg : Config) (hv : cfg.Valid) (r : Resampler F)
    (h : cfg.Reachable r) :
    ∃ d v : ℚ, r.delay = .ok d ∧ delay64 cfg.mode cfg.filter cfg.ratio cfg.precision = Fl.fin v ∧ |v - d| ≤ 1 / 10 ^ 14 ∧
      (cfg.filter = .fir → v = d) := by
  have hm : cfg.mode ∈ [Mode.up, Mode.down] := by cases cfg.mode <;> simp
  have hf : cfg.filter ∈ [Filter.fir, Filter.iir] := by cases cfg.filter <;> simp
  have key := delay_all cfg.mode hm cfg.filter hf cfg.ratio hv.ratio cfg.precision hv.precision hv.iir
  have e : (Examples.cfg cfg.mode cfg.ratio cfg.precision true cfg.filter).totalDelay = cfg.totalDelay := rfl
  rw [delayOk, e] at key
  generalize hd : delay64 cfg.mode cfg.filter cfg.ratio cfg.precision = w at key
  match w with
  | none => exact absurd key (by simp)
  | some v =>
    simp only [Bool.and_eq_true, Bool.or_eq_true, decide_eq_true_eq] at key
    refine ⟨_, v, h.delay hv, rfl, key.1, fun hfir => key.2.resolve_left ?_⟩
    rw [hfir]
    simp

/-- An IIR resampler: `delay()` is not exact. -/
example : (cfg .down 8 12 true .iir).Valid ∧ (∃ r : Resampler ℚ, (cfg .down 8 12 true .iir).Reachable r) ∧
    delay64 .down .iir 8 12 ≠ Fl.fin (cfg .down 8 12 true .iir).totalDelay := by
  have hv : (cfg .down 8 12 true .iir).Valid := ⟨by decide, by decide, by decide⟩
  obtain ⟨q, hq, -⟩ := Config.session_sat (F := ℚ) hv (ops := []) (by simp)
  exact ⟨hv, ⟨q.1, [], q.2, by simp, hq⟩, by decide +kernel⟩

end Panda
