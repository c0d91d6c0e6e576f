import Verif.Proofs.TestFreqs

/-!
# C117: tests/testdownmulti.cc tests all multiples of 100 Hz below half the higher sampling rate
-/

namespace Panda.Tool

open Designer

/-- The calls of `check_amps` are for 100 Hz, 200 Hz and so on, exactly in spite of the `float` loop variable, up to the last multiple of 100 Hz
below `22050 * ds`, for all ratios up to 760. -/
theorem C117_frequencies (ds : ℕ) (h0 : 0 < ds) (h : ds ≤ 760) :
    ∃ l : List ℕ, downFreqs ds = .ok (l.map fun f : ℕ => Fl.fin (f : ℚ)) ∧ l.Pairwise (· < ·) ∧
      ∀ f : ℕ, f ∈ l ↔ 0 < f ∧ 100 ∣ f ∧ f < 22050 * ds := by
  refine ⟨(List.range ((22050 * ds - 1) / 100)).map fun j => 100 * (j + 1), ?_, ?_, ?_⟩
  · unfold downFreqs
    have hi : int32 (22050 * ds) = .ok (22050 * ds : ℤ) := by
      unfold int32
      rw [if_pos (by omega)]
      rfl
    rw [hi]
    have hb : Fl.mk binary32 (((22050 * ds : ℤ) : ℤ) : ℚ) = Fl.fin ((22050 * ds : ℕ) : ℚ) := by
      rw [← mk_nat (show 22050 * ds ≤ 2 ^ 24 by omega)]
      push_cast
      rfl
    show (whileU (fun s : Fl binary32 × List (Fl binary32) => ltFl s.1 (Fl.mk binary32 (((22050 * ds : ℤ) : ℤ) : ℚ))) _ _ >>= _) = _
    rw [hb]
    have hl := freqs_loop (B := 22050 * ds) (by omega) (by omega) ((22050 * ds - 1) / 100) 0 (by omega)
    have h100 : (((100 * (0 + 1) : ℕ) : ℚ)) = 100 := by norm_num
    rw [h100, List.range_zero, List.map_nil] at hl
    rw [hl, List.map_map]
    rfl
  · rw [List.pairwise_map]
    exact List.pairwise_lt_range.imp fun h => by omega
  · intro f
    rw [List.mem_map]
    constructor
    · rintro ⟨j, hj, rfl⟩
      rw [List.mem_range] at hj
      exact ⟨by omega, ⟨j + 1, rfl⟩, by omega⟩
    · rintro ⟨h1, ⟨k, rfl⟩, h2⟩
      exact ⟨k - 1, by rw [List.mem_range]; omega, by omega⟩

/-- Ratio 8. -/
example : ∃ l : List ℕ, downFreqs 8 = .ok (l.map fun f : ℕ => Fl.fin (f : ℚ)) ∧ 176300 ∈ l ∧ 176400 ∉ l ∧ 150 ∉ l := by
  obtain ⟨l, h, _, hm⟩ := C117_frequencies 8 (by norm_num) (by norm_num)
  exact ⟨l, h, (hm _).2 (by norm_num), fun hc => by have := (hm _).1 hc; omega, fun hc => by have := (hm _).1 hc; omega⟩

end Panda.Tool
