import Verif.Model.TestFreqs
import Verif.Proofs.Designer
import Verif.Proofs.Float

/-!
# The frequencies tested by tests/testdownmulti.cc
-/

namespace Panda.Tool

open Designer

theorem mk_nat {n : ℕ} (h : n ≤ 2 ^ 24) : Fl.mk binary32 (n : ℚ) = Fl.fin (n : ℚ) := by
  have hf : IsFloat (n : ℚ) := ⟨n, 0, by rw [Nat.abs_cast]; exact_mod_cast h, by norm_num, by simp⟩
  have hr : binary32.rnd (n : ℚ) = n := rnd32_of_isFloat hf
  have hb : binary32.fits (n : ℚ) = true := by
    simp only [binary32, decide_eq_true_eq, Nat.abs_cast]
    have : (n : ℚ) ≤ 2 ^ 24 := by exact_mod_cast h
    exact this.trans_lt (by norm_num)
  unfold Fl.mk
  rw [hr]
  exact if_pos hb

/-- One more element at the end. -/
theorem freqs_succ (k : ℕ) : (List.range k).map (fun j : ℕ => (Fl.fin ((100 * (j + 1) : ℕ) : ℚ) : Fl binary32)) ++ [Fl.fin ((100 * (k + 1) : ℕ) : ℚ)]
    = (List.range (k + 1)).map (fun j : ℕ => (Fl.fin ((100 * (j + 1) : ℕ) : ℚ) : Fl binary32)) := by
  rw [List.range_succ, List.map_append]
  rfl

theorem freqs_loop {B : ℕ} (hB : B < 2 ^ 24 - 100) (h0 : 0 < B) : ∀ d k : ℕ, k + d = (B - 1) / 100 →
    whileU (fun s : Fl binary32 × List (Fl binary32) => ltFl s.1 (Fl.fin (B : ℚ))) (fun s => do
      let calls := s.2 ++ [s.1]
      pure (s.1 + Fl.fin 100, calls))
      (Fl.fin ((100 * (k + 1) : ℕ) : ℚ), (List.range k).map (fun j : ℕ => (Fl.fin ((100 * (j + 1) : ℕ) : ℚ) : Fl binary32)))
    = .ok (Fl.fin ((100 * ((B - 1) / 100 + 1) : ℕ) : ℚ), (List.range ((B - 1) / 100)).map (fun j : ℕ => (Fl.fin ((100 * (j + 1) : ℕ) : ℚ) : Fl binary32))) := by
  intro d
  induction d with
  | zero =>
    intro k hk
    have : k = (B - 1) / 100 := by omega
    subst this
    rw [whileU_step, if_neg]
    · rfl
    · show ¬(decide _ = true)
      rw [decide_eq_true_eq, not_lt]
      have : B ≤ 100 * ((B - 1) / 100 + 1) := by omega
      exact_mod_cast this
  | succ d ih =>
    intro k hk
    rw [whileU_step, if_pos]
    · have hs : (Fl.fin ((100 * (k + 1) : ℕ) : ℚ) + Fl.fin 100 : Fl binary32) = Fl.fin ((100 * (k + 1 + 1) : ℕ) : ℚ) := by
        show Fl.mk binary32 (((100 * (k + 1) : ℕ) : ℚ) + 100) = _
        rw [show (((100 * (k + 1) : ℕ) : ℚ) + 100) = ((100 * (k + 1 + 1) : ℕ) : ℚ) by push_cast; ring]
        exact mk_nat (by omega)
      simp only []
      rw [hs, freqs_succ]
      exact ih (k + 1) (by omega)
    · show decide _ = true
      rw [decide_eq_true_eq]
      have : 100 * (k + 1) < B := by omega
      exact_mod_cast this

end Panda.Tool
