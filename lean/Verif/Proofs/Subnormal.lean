import Verif.Proofs.FastFloat
import Verif.Proofs.IirRoundStage

/-!
# IIR filters at rest

After an impulse, the sections of an IIR filter in binary32 do not return to zero: they end in a cycle of length 2.
-/

namespace Panda

theorem chainState_zero {F : Type} [Zero F] [Add F] [Sub F] [Mul F] (as : List F) (x : ℕ → F) :
    chainState as x 0 = chainNext as (x 0) (List.replicate (as.length + 1) 0) := by
  induction as generalizing x with
  | nil => rfl
  | cons a as ih =>
    rw [chainState, ih]
    rfl

/-- The sections after an impulse. -/
def impState (as : List Fx) (n : ℕ) : List Fx := (chainNext as 0)^[n] (chainNext as 1 (List.replicate (as.length + 1) 0))

theorem impState_eq (as : List Fx) {x : ℕ → Fl binary32} (h0 : x 0 = 1) (hx : ∀ n, x (n + 1) = 0) (n : ℕ) :
    chainState (as.map Fx.toFl) x n = (impState as n).map Fx.toFl := by
  induction n with
  | zero =>
    have : List.replicate (as.length + 1) (0 : Fl binary32) = (List.replicate (as.length + 1) (0 : Fx)).map Fx.toFl := by
      rw [List.map_replicate, Fx.toFl_zero]
    rw [chainState_zero, h0, List.length_map, this, ← Fx.toFl_one, Fx.chainNext_toFl]
    rfl
  | succ n ih =>
    rw [chainState_succ, hx, ih, ← Fx.toFl_zero, Fx.chainNext_toFl]
    unfold impState
    rw [Function.iterate_succ_apply']

/-- From sample `n` on the sections alternate between two states. -/
def restCert (as : List Fx) (n : ℕ) (l l' : List Fx) : Bool :=
  decide (impState as n = l) && decide (chainNext as 0 l = l') && decide (chainNext as 0 l' = l)

theorem restCert_state {as : List Fx} {N : ℕ} {l l' : List Fx} (h : restCert as N l l' = true) : ∀ n ≥ N, impState as n = l ∨ impState as n = l' := by
  simp only [restCert, Bool.and_eq_true, decide_eq_true_eq] at h
  obtain ⟨⟨h1, h2⟩, h3⟩ := h
  intro n hn
  induction n, hn using Nat.le_induction with
  | base => exact Or.inl h1
  | succ n _ ih =>
    have e : impState as (n + 1) = chainNext as 0 (impState as n) := by
      unfold impState
      rw [Function.iterate_succ_apply']
    rw [e]
    rcases ih with ih | ih <;> rw [ih]
    · exact Or.inr h2
    · exact Or.inl h3

theorem restCert_out {as : List Fx} {N : ℕ} {l l' : List Fx} (h : restCert as N l l' = true) {x : ℕ → Fl binary32} (h0 : x 0 = 1)
    (hx : ∀ n, x (n + 1) = 0) : ∀ n ≥ N, apChain (as.map Fx.toFl) x n = (l.getLastD 0).toFl ∨ apChain (as.map Fx.toFl) x n = (l'.getLastD 0).toFl := by
  intro n hn
  have last : ∀ l : List Fx, (l.map Fx.toFl).getLastD 0 = (l.getLastD 0).toFl := by
    intro l
    rw [← Fx.toFl_zero]
    generalize (0 : Fx) = d
    induction l generalizing d with
    | nil => rfl
    | cons a l ih => rw [List.map_cons, List.getLastD_cons, List.getLastD_cons, ih]
  rw [← chainState_last _ _ _ 0, impState_eq as h0 hx, last]
  rcases restCert_state h n hn with h | h <;> rw [h] <;> simp

/-- Coefficients of a branch of the factor 2 filters as integers. -/
def restCoefs (p b : ℕ) : List Fx := (branchDecs (iirDecs 2 p) b).map fun d => Fx.ofFl (Sample.ofDouble d.toRat)

theorem restCoefs_eq : ∀ p ∈ [8, 12, 16, 20, 24], ∀ b ∈ [0, 1],
    (restCoefs p b).map Fx.toFl = (branchDecs (iirDecs 2 p) b).map fun d => (Sample.ofDouble d.toRat : Fl binary32) := by
  decide +kernel

set_option maxRecDepth 100000 in
theorem rest8 : restCert (restCoefs 8 0) 457 [.p 0, .p 0, .m 2] [.p 0, .p 0, .p 2] = true := by decide +kernel

set_option maxRecDepth 100000 in
theorem rest12 : restCert (restCoefs 12 0) 723 [.p 0, .p 0, .p 0, .p 3] [.p 0, .p 0, .p 0, .m 3] = true := by decide +kernel

set_option maxRecDepth 100000 in
theorem rest16 : restCert (restCoefs 16 0) 277 [.p 0, .p 0, .p 0, .p 1] [.p 0, .p 0, .p 0, .m 1] = true := by decide +kernel

set_option maxRecDepth 100000 in
theorem rest16' : restCert (restCoefs 16 1) 854 [.p 0, .p 0, .p 0, .m 4] [.p 0, .p 0, .p 0, .p 4] = true := by decide +kernel

set_option maxRecDepth 100000 in
theorem rest20 : restCert (restCoefs 20 0) 371 [.p 0, .p 0, .p 0, .p 0, .m 2] [.p 0, .p 0, .p 0, .p 0, .p 2] = true := by decide +kernel

set_option maxRecDepth 100000 in
theorem rest24 : restCert (restCoefs 24 0) 1246 [.p 0, .p 0, .p 0, .p 0, .p 1, .m 7] [.p 0, .p 0, .p 0, .p 0, .m 1, .p 7] = true := by decide +kernel

end Panda
