import Verif.Proofs.SelfTestRound
import Verif.Props.Common

/-!
# The self test of the library (C51, C66)
-/

namespace Panda

/-- **C51** In exact arithmetic `test_filter_impl` accesses only its own buffers and returns true, whatever the random samples, for every
build and every allocator. -/
theorem C51_self_test_exact {K : Type} [Field K] [LinearOrder K] [IsStrictOrderedRing K] [Sample K] (bld : Build) (al : Alloc)
    (rand : ℕ → K) : testFilterImpl bld al (wideExact K) rand = .ok true := by
  unfold testFilterImpl
  split
  · obtain ⟨b, h1, h2⟩ := firTestFilterSse_ok al (wideExact K) rand 64
    rw [h1, h2.2 fun o _ => testError_exact _ o]
  · rfl

/-- **C51** Whatever the arithmetic of `float` and `double`: no access outside of its buffers, no misaligned access. -/
theorem C51_self_test_safe {F D : Type} [Zero F] [Add F] [Mul F] [Sample F] (bld : Build) (al : Alloc) (w : Wide F D) (rand : ℕ → F) :
    ∃ b, testFilterImpl bld al w rand = .ok b := by
  unfold testFilterImpl
  split
  · obtain ⟨b, h1, -⟩ := firTestFilterSse_ok al w rand 64
    exact ⟨b, h1⟩
  · exact ⟨true, rfl⟩

/-- **C66 is false.** If `rand()` returns 294700 all the time (`RAND_MAX` = 2^31 - 1), the test reports an
error, although the filter code is correct: the tolerance is smaller than the rounding errors of `float` can be. -/
theorem C66_false_binary32 (bld : Build) (h : sseAvailable bld = true) (al : Alloc) :
    testFilterImpl bld al wide64 (fun _ => randSample (2 ^ 31 - 1) 294700) = .ok false := by
  unfold testFilterImpl
  rw [if_pos h]
  obtain ⟨b, h1, h2⟩ := firTestFilterSse_ok al wide64 (fun _ => randSample (2 ^ 31 - 1) 294700) 64
  have e : testError wide64 (fun _ => randSample (2 ^ 31 - 1) 294700) 62 = true := by decide +kernel
  rw [h1]
  cases b
  · rfl
  · have := h2.1 rfl 62 (by omega)
    rw [e] at this
    cases this

/-- The same `float` and `double` arithmetic, with another tolerance than the 0.00001 of pandaresampler.cc:329. Here an infinity or NaN
counts as an error. -/
def wideTol (tol : ℚ) : Wide (Fl binary32) (Fl binary64) :=
  { wide64 with
    tooBig := fun a => match a with
      | some q => decide (tol < q)
      | none => true }

theorem wideSum_tol (tol : ℚ) (x t : ℕ → Fl binary32) (n : ℕ) : wideSum (wideTol tol) x t n = wideSum wide64 x t n := by
  induction n with
  | zero => rfl
  | succ n ih =>
    unfold wideSum
    rw [ih]
    rfl

theorem testError_tol {rand : ℕ → Fl binary32} (hx : ∀ i, ∃ q, rand i = Fl.fin q ∧ |q| ≤ 1) {tol : ℚ} {O : ℕ} (hO : O < 64)
    (h : avgBound O ≤ tol) : testError (wideTol tol) rand O = false := by
  obtain ⟨a, h1, h2⟩ := testAvg_bound hx hO
  have e : testAvg (wideTol tol) rand O = testAvg wide64 rand O := by
    unfold testAvg testDiff
    simp only [wideSum_tol]
    rfl
  change (wideTol tol).tooBig (testAvg (wideTol tol) rand O) = false
  rw [e, h1]
  exact decide_eq_false (not_lt.2 (h2.trans h))

/-- **C66, what holds.** The filters of order at most 13 pass the test with its own tolerance, whatever samples between -1 and 1 are used:
the reported error of `C66_false_binary32` comes from the larger ones. Missing: the orders 14 to 63. -/
theorem C66_small_orders_partial (al : Alloc) {rand : ℕ → Fl binary32} (hx : ∀ i, ∃ q, rand i = Fl.fin q ∧ |q| ≤ 1) :
    firTestFilterSse al wide64 rand 14 = .ok true := by
  obtain ⟨b, h1, h2⟩ := firTestFilterSse_ok al wide64 rand 14
  have hb : ∀ o < 14, avgBound o ≤ rnd64 (1 / 100000) := by decide +kernel
  rw [h1, h2.2 fun o ho => ?_]
  obtain ⟨a, h1, h2⟩ := testAvg_bound (fun i => hx (drawn o + i)) (by omega : o < 64)
  change wide64.tooBig (testAvg wide64 (fun i => rand (drawn o + i)) o) = false
  rw [h1]
  exact decide_eq_false (not_lt.2 (h2.trans (hb o ho)))

/-- **C66, what holds.** With the tolerance 0.00015 instead of 0.00001 the whole test would never report an error, whatever samples between
-1 and 1 are used, on any build. Missing: the tolerance of the code. -/
theorem C66_tolerance_partial (bld : Build) (al : Alloc) {rand : ℕ → Fl binary32} (hx : ∀ i, ∃ q, rand i = Fl.fin q ∧ |q| ≤ 1) :
    testFilterImpl bld al (wideTol (15 / 100000)) rand = .ok true := by
  unfold testFilterImpl
  split
  · obtain ⟨b, h1, h2⟩ := firTestFilterSse_ok al (wideTol (15 / 100000)) rand 64
    have hb : ∀ o < 64, avgBound o ≤ 15 / 100000 := by decide +kernel
    rw [h1, h2.2 fun o ho => testError_tol (fun i => hx (drawn o + i)) ho (hb o ho)]
  · rfl

/-- **C66, what holds.** The samples that pandaresampler.cc:315 makes of any results of `rand()` meet the hypothesis of the two theorems
above (`RAND_MAX` = 2^31 - 1). -/
theorem C66_rand_partial (bld : Build) (al : Alloc) {r : ℕ → ℕ} (hr : ∀ i, r i ≤ 2 ^ 31 - 1) :
    firTestFilterSse al wide64 (fun i => randSample (2 ^ 31 - 1) (r i)) 14 = .ok true ∧
    testFilterImpl bld al (wideTol (15 / 100000)) (fun i => randSample (2 ^ 31 - 1) (r i)) = .ok true :=
  ⟨C66_small_orders_partial al fun i => randSample_range (hr i), C66_tolerance_partial bld al fun i => randSample_range (hr i)⟩

/-- The samples for which the test fails, with both theorems. -/
example (al : Alloc) : testFilterImpl ⟨true, false, false⟩ al wide64 (fun _ => randSample (2 ^ 31 - 1) 294700) = .ok false ∧
    firTestFilterSse al wide64 (fun _ => randSample (2 ^ 31 - 1) 294700) 14 = .ok true ∧
    testFilterImpl ⟨true, false, false⟩ al (wideTol (15 / 100000)) (fun _ => randSample (2 ^ 31 - 1) 294700) = .ok true :=
  ⟨C66_false_binary32 _ rfl al, C66_rand_partial _ al fun _ => by norm_num⟩

/-- The tolerance matters: with a millionth the test reports an error for these samples. -/
example : testError (wideTol (1 / 1000000)) (fun _ => randSample (2 ^ 31 - 1) 294700) 62 = true := by decide +kernel

/-- In floating point arithmetic the test does not always fail: it finds no error for the order 62 if all samples are 1. -/
example : testError wide64 (fun _ => randSample (2 ^ 31 - 1) 0) 62 = false := by decide +kernel

open Examples in
/-- Exact arithmetic: a concrete run. -/
example : testFilterImpl ⟨true, false, false⟩ ⟨fun n => 100 * n + 7, fun n => n⟩ (wideExact ℚ) (fun i => 1 / (i + 1)) = .ok true :=
  C51_self_test_exact _ _ _

end Panda
