import Verif.Proofs.DesignerTables

/-!
# The IIR tables of the source are what the designer computes (C64, C65)

`iirTable k p`: coefficients and delay constant of the source for stage `k` and `p` bits. The designer is evaluated in real arithmetic.
-/

namespace Panda

open Designer

/-- **C64** The number of coefficients `mkiir` computes is the size of the table in the source. -/
theorem C64_sizes (bld : Build) (k p : ℕ) (hk : k ∈ [2, 4, 8]) (hp : p ∈ [8, 12, 16, 20, 24]) (cs : List Dec) (gd : Dec)
    (h : iirTable k p = some (cs, gd)) : mkNbrCoefs bld k p = .ok (cs.length : ℤ) := by
  have := mkNbrCoefs_table bld hk hp
  unfold iirTab at this
  rw [h] at this
  exact this

/-- **C65** `compute_coefs_spec_order_tbw` for the number of coefficients and the transition bandwidth of a stage writes the coefficients
of the source, up to `10 ^ -12`, and nothing else, into any array of sufficient size. -/
theorem C65_coefficients (bld : Build) (k p : ℕ) (hk : k ∈ [2, 4, 8]) (hp : p ∈ [8, 12, 16, 20, 24]) (cs : List Dec) (gd : Dec)
    (h : iirTable k p = some (cs, gd)) (arr : Buf ℝ) (hl : cs.length ≤ arr.len) :
    ∃ arr', computeCoefsSpecOrderTbw bld arr cs.length ((44100 * k / 2 / 2 - 18000) / (44100 * k / 2)) = .ok arr' ∧
      arr'.addr = arr.addr ∧ arr'.len = arr.len ∧
      (∀ (i : ℕ) (hi : i < cs.length), |arr'.get i - (cs[i].toRat : ℝ)| ≤ 1 / 10 ^ 12) ∧
      ∀ i, cs.length ≤ i → arr'.get i = arr.get i := by
  have := fun hl => design_table bld hk hp arr hl
  unfold iirTab at this
  rw [h] at this
  obtain ⟨arr', h1, h2, h3, h4, h5⟩ := this hl
  refine ⟨arr', h1, h2, h3, fun i hi => ?_, h5⟩
  have := h4 i hi
  simpa [hi] using this

/-- **C65** What `mkiir` prints for a stage and a precision: the number of coefficients, the coefficients and the delay constant of the
source. -/
theorem C65_mkiir (bld : Build) (addr : ℕ) (stack : ℕ → ℝ) (k p : ℕ) (hk : k ∈ [2, 4, 8]) (hp : p ∈ [8, 12, 16, 20, 24]) (cs : List Dec)
    (gd : Dec) (h : iirTable k p = some (cs, gd)) :
    ∃ arr d, mkFilter bld addr stack k p = .ok ((cs.length : ℤ), arr, d) ∧ arr.len = cs.length ∧
      (∀ (i : ℕ) (hi : i < cs.length), |arr.get i - (cs[i].toRat : ℝ)| ≤ 1 / 10 ^ 12) ∧
      |d - (gd.toRat : ℝ)| ≤ 1 / 2 * (1 / 10 ^ 6) := by
  obtain ⟨arr, h1, -, h3, h4, -⟩ := C65_coefficients bld k p hk hp cs gd h ⟨addr, cs.length, stack⟩ le_rfl
  have hn := C64_sizes bld k p hk hp cs gd h
  have hg := fun hl ha => mkGroupDelay_near bld hk hp arr hl ha
  have n0 := (orderCheck_ok k hk p hp).1
  unfold iirTab iirGd at hg
  unfold iirTab at n0
  rw [h] at hg n0
  obtain ⟨d, h5, h6⟩ := hg h3.ge (fun i hi => by
    have hi' : i < cs.length := hi
    have := h4 i hi'
    simpa [hi'] using this)
  refine ⟨arr, d, ?_, h3, h4, h6⟩
  unfold mkFilter
  rw [hn, ok_bind, if_neg (by have : 0 < cs.length := n0; omega)]
  simp only [Int.toNat_natCast]
  rw [h1, ok_bind]
  have h5' : mkGroupDelay bld k arr cs.length = .ok d := h5
  rw [h5', ok_bind]
  rfl

/-- The hypotheses are met by every stage and precision of the source. -/
example : ∀ k ∈ [2, 4, 8], ∀ p ∈ [8, 12, 16, 20, 24], (iirTable k p).isSome = true := by decide

/-- For example: 9 coefficients for 144 dB, the first stage. -/
example (bld : Build) : mkNbrCoefs bld 2 24 = .ok 9 := C64_sizes bld 2 24 (by simp) (by simp) iir2x24 gd2x24 rfl

end Panda
