import Verif.Proofs.UltraCert

/-!
# C72: the FIR tables are the result of the design scripts
-/

namespace Panda

open FirDesign

/-- One call: the certificates give the window and the distance of the table from the designed coefficients. -/
theorem FirDesign.designed {n k : ℕ} {sg cn cd U X : ℤ} {tab : List Dec} (hn : 1 ≤ n) (hl : lobeCheck n sg cn cd U = true)
    (ha : attCheck n k U X = true) (ht : tableCheck n X tab = true) :
    tab.length = n ∧ (∃ win, IsUltrwin n xmu (k / 4) win) ∧
      ∀ win, IsUltrwin n xmu (k / 4) win → ∀ j (hj : j < tab.length), |((tab[j].toRat : ℚ) : ℝ) - mkfirCoef n win j| ≤ 2 / 10 ^ 16 := by
  have hmu : xmu = 3 / 4 := by norm_num [xmu]
  rw [hmu]
  obtain ⟨h1, h2, ⟨x, hx⟩, hall⟩ := att_iff hn hl ha
  obtain ⟨h0, hlen, _⟩ := table_close ht h1 h2 (hall x hx).1 (hall x hx).2
  refine ⟨hlen, ⟨_, x, hx, window_exists h0⟩, ?_⟩
  rintro win ⟨x', hx', hw⟩
  exact (table_close ht h1 h2 (hall x' hx').1 (hall x' hx').2).2.2 win hw

/-- **C72** Every call of `mkfir` in mkfir.sh belongs to a table of `create_impl`. The table has the length which is passed, the window
which the script asks for exists, and all numbers of the table agree with the numbers which the script prints up to `2 * 10 ^ -16`:
for every window which meets the specification of `ultrwin`, and for every coefficient. -/
theorem C72_fir_tables_designed : ∀ c ∈ calls, ∃ tab, firTable c.stage c.bits = some tab ∧ tab.length = c.n ∧
    (∃ win, IsUltrwin c.n xmu c.latt win) ∧
    ∀ win, IsUltrwin c.n xmu c.latt win →
      ∀ j (hj : j < tab.length), |((tab[j].toRat : ℚ) : ℝ) - mkfirCoef c.n win j| ≤ 2 / 10 ^ 16 := by
  intro c hc
  simp only [calls, List.mem_cons, List.not_mem_nil, or_false] at hc
  rcases hc with rfl | rfl | rfl | rfl | rfl | rfl | rfl | rfl | rfl | rfl | rfl | rfl | rfl | rfl | rfl
  · exact ⟨fir2x24, rfl, designed (by norm_num) lobe52_ok att2x24_ok tab2x24_ok⟩
  · exact ⟨fir4x24, rfl, designed (by norm_num) lobe16_ok att4x24_ok tab4x24_ok⟩
  · exact ⟨fir8x24, rfl, designed (by norm_num) lobe12_ok att8x24_ok tab8x24_ok⟩
  · exact ⟨fir2x20, rfl, designed (by norm_num) lobe42_ok att2x20_ok tab2x20_ok⟩
  · exact ⟨fir4x20, rfl, designed (by norm_num) lobe14_ok att4x20_ok tab4x20_ok⟩
  · exact ⟨fir8x20, rfl, designed (by norm_num) lobe10_ok att8x20_ok tab8x20_ok⟩
  · exact ⟨fir2x16, rfl, designed (by norm_num) lobe32_ok att2x16_ok tab2x16_ok⟩
  · exact ⟨fir4x16, rfl, designed (by norm_num) lobe10_ok att4x16_ok tab4x16_ok⟩
  · exact ⟨fir8x16, rfl, designed (by norm_num) lobe8_ok att8x16_ok tab8x16_ok⟩
  · exact ⟨fir2x12, rfl, designed (by norm_num) lobe24_ok att2x12_ok tab2x12_ok⟩
  · exact ⟨fir4x12, rfl, designed (by norm_num) lobe8_ok att4x12_ok tab4x12_ok⟩
  · exact ⟨fir8x12, rfl, designed (by norm_num) lobe6_ok att8x12_ok tab8x12_ok⟩
  · exact ⟨fir2x8, rfl, designed (by norm_num) lobe16_ok att2x8_ok tab2x8_ok⟩
  · exact ⟨fir4x8, rfl, designed (by norm_num) lobe6_ok att4x8_ok tab4x8_ok⟩
  · exact ⟨fir8x8, rfl, designed (by norm_num) lobe4_ok att8x8_ok tab8x8_ok⟩

/-- **C72** Conversely every FIR table of `create_impl` except the linear one (precision 1) comes from a call of `mkfir`. -/
theorem C72_every_table {k p : ℕ} {tab : List Dec} (h : firTable k p = some tab) (hp : p ≠ 1) : ∃ c ∈ calls, c.stage = k ∧ c.bits = p := by
  by_contra hne
  have key : ∀ c ∈ calls, ¬ (k = c.stage ∧ p = c.bits) := fun c hc hkp => hne ⟨c, hc, hkp.1.symm, hkp.2.symm⟩
  simp only [calls, List.forall_mem_cons] at key
  obtain ⟨h1, h2, h3, h4, h5, h6, h7, h8, h9, h10, h11, h12, h13, h14, h15, _⟩ := key
  rw [firTable, if_neg h1, if_neg h2, if_neg h3, if_neg h4, if_neg h5, if_neg h6, if_neg h7, if_neg h8, if_neg h9, if_neg h10,
    if_neg h11, if_neg h12, if_neg h13, if_neg h14, if_neg h15, if_neg hp] at h
  exact Option.some_ne_none _ h.symm

-- the demanded window exists, so the claim about all of them is not empty
example : ∃ win, IsUltrwin 52 xmu 138 win ∧ win 52 = 1 := by
  obtain ⟨tab, _, _, ⟨win, hw⟩, _⟩ := C72_fir_tables_designed ⟨2, 24, 52, 4 * 138⟩ (by simp [calls])
  have e : Call.latt ⟨2, 24, 52, 4 * 138⟩ = 138 := by norm_num [Call.latt]
  rw [e] at hw
  exact ⟨win, hw, hw.choose_spec.2.one⟩

-- the first number of `coeffs8_8`: `sinc (-1.5) / 2` times the window
example : ∀ win, IsUltrwin 4 xmu 42 win → |(-0.037276258261764332 : ℝ) - octSinc (-1.5) * win 1 / 2| ≤ 2 / 10 ^ 16 := by
  intro win hw
  obtain ⟨tab, ht, _, _, h⟩ := C72_fir_tables_designed ⟨8, 8, 4, 4 * 42⟩ (by simp [calls])
  have e : Call.latt ⟨8, 8, 4, 4 * 42⟩ = 42 := by norm_num [Call.latt]
  rw [e] at h
  have ht' : tab = fir8x8 := (Option.some.inj ht).symm
  subst ht'
  have := h win hw 0 (by decide)
  simp only [mkfirCoef, usSinc] at this
  norm_num [fir8x8, Dec.toRat, Rat.mkRat_eq_div] at this
  norm_num
  exact this

-- the table for ratio 4 and 16 bits comes from a call
example : ∃ c ∈ calls, c.stage = 4 ∧ c.bits = 16 := C72_every_table (tab := fir4x16) rfl (by decide)

end Panda
