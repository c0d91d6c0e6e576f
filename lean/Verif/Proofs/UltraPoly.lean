import Mathlib.Analysis.SpecialFunctions.Pow.Real
import Mathlib.Topology.Order.IntermediateValue
import Verif.Model.FirDesign
import Verif.Proofs.Ultraspherical

/-!
# Integer certificates for the ultraspherical windows

Polynomials are lists of integers (the lowest coefficient first). The checkers only compute with integers; they are evaluated by the kernel.
-/

namespace Panda.FirDesign

/-! ## Polynomials -/

/-- Value of a polynomial -/
noncomputable def pe : List ℤ → ℝ → ℝ
  | [], _ => 0
  | c :: l, u => c + u * pe l u

/-- `α p + β q` -/
def lin (α β : ℤ) : List ℤ → List ℤ → List ℤ
  | [], q => q.map (β * ·)
  | p, [] => p.map (α * ·)
  | a :: p, b :: q => (α * a + β * b) :: lin α β p q

theorem pe_map (α : ℤ) (p : List ℤ) (u : ℝ) : pe (p.map (α * ·)) u = α * pe p u := by
  induction p with
  | nil => simp [pe]
  | cons a p ih =>
    rw [List.map_cons, pe, pe, ih]
    push_cast
    ring

theorem pe_lin (α β : ℤ) (p q : List ℤ) (u : ℝ) : pe (lin α β p q) u = α * pe p u + β * pe q u := by
  induction p generalizing q with
  | nil => rw [lin, pe_map, pe, mul_zero, zero_add]
  | cons a p ih =>
    cases q with
    | nil => simp only [lin, pe_map, pe, mul_zero, add_zero]
    | cons b q =>
      simp only [lin, pe, ih]
      push_cast
      ring

theorem getD_map (α : ℤ) (p : List ℤ) (i : ℕ) : (p.map (α * ·)).getD i 0 = α * p.getD i 0 := by
  induction p generalizing i with
  | nil => simp
  | cons a p ih =>
    cases i with
    | zero => rfl
    | succ i => exact ih i

theorem getD_lin (α β : ℤ) (p q : List ℤ) (i : ℕ) : (lin α β p q).getD i 0 = α * p.getD i 0 + β * q.getD i 0 := by
  induction p generalizing q i with
  | nil => rw [lin, getD_map]; simp
  | cons a p ih =>
    cases q with
    | nil => simp only [lin, getD_map]; simp
    | cons b q =>
      cases i with
      | zero => rfl
      | succ i => exact ih q i

/-- Derivative -/
def der : List ℤ → List ℤ
  | [] => []
  | _ :: l => lin 1 1 l (0 :: der l)

theorem pe_hasDerivAt (l : List ℤ) (u : ℝ) : HasDerivAt (pe l) (pe (der l) u) u := by
  induction l with
  | nil =>
    have e : pe [] = fun _ => 0 := by
      funext x
      rfl
    rw [e]
    exact hasDerivAt_const u 0
  | cons c l ih =>
    have e : pe (c :: l) = fun x => (c : ℝ) + x * pe l x := by
      funext x
      rfl
    rw [e, der, pe_lin, pe]
    have := ((hasDerivAt_id u).mul ih).const_add (c : ℝ)
    refine this.congr_deriv ?_
    simp

theorem pe_continuous (l : List ℤ) : Continuous (pe l) :=
  continuous_iff_continuousAt.mpr fun u => (pe_hasDerivAt l u).continuousAt

/-- Numerator and denominator of the value at `a / b` -/
def hev (a b : ℤ) : List ℤ → ℤ × ℤ
  | [] => (0, 1)
  | c :: l => (c * ((hev a b l).2 * b) + a * (hev a b l).1, (hev a b l).2 * b)

theorem hev_pos {a b : ℤ} (hb : 0 < b) (l : List ℤ) : 0 < (hev a b l).2 := by
  induction l with
  | nil => exact one_pos
  | cons c l ih => exact Int.mul_pos ih hb

theorem hev_eq {a b : ℤ} (hb : 0 < b) (l : List ℤ) : ((hev a b l).1 : ℝ) = (hev a b l).2 * pe l (a / b) := by
  have hb' : (b : ℝ) ≠ 0 := by exact_mod_cast hb.ne'
  induction l with
  | nil => simp [hev, pe]
  | cons c l ih =>
    simp only [hev, pe]
    push_cast
    rw [ih]
    field_simp

/-- `(cd ^ length) p ((cn - s) / cd)` as a polynomial in `s` (and the factor) -/
def shf (cn cd : ℤ) : List ℤ → List ℤ × ℤ
  | [] => ([], 1)
  | c :: l =>
    (lin 1 1 [c * ((shf cn cd l).2 * cd)] (lin cn (-1) (shf cn cd l).1 (0 :: (shf cn cd l).1)), (shf cn cd l).2 * cd)

theorem shf_pos {cn cd : ℤ} (h : 0 < cd) (l : List ℤ) : 0 < (shf cn cd l).2 := by
  induction l with
  | nil => exact one_pos
  | cons c l ih => exact Int.mul_pos ih h

theorem shf_eq {cn cd : ℤ} (h : 0 < cd) (l : List ℤ) (s : ℝ) : pe (shf cn cd l).1 s = (shf cn cd l).2 * pe l ((cn - s) / cd) := by
  have hb' : (cd : ℝ) ≠ 0 := by exact_mod_cast h.ne'
  induction l with
  | nil => simp [shf, pe]
  | cons c l ih =>
    simp only [shf, pe, pe_lin]
    rw [ih]
    push_cast
    field_simp
    ring

theorem pe_nonneg {l : List ℤ} (h : ∀ c ∈ l, 0 ≤ c) {s s' : ℝ} (hs : 0 ≤ s) (hss : s ≤ s') : 0 ≤ pe l s ∧ pe l s ≤ pe l s' := by
  induction l with
  | nil => exact ⟨le_rfl, le_rfl⟩
  | cons c l ih =>
    obtain ⟨h1, h2⟩ := ih fun c hc => h c (List.mem_cons_of_mem _ hc)
    have h3 : (0 : ℝ) ≤ c := by exact_mod_cast h c List.mem_cons_self
    simp only [pe]
    exact ⟨by positivity, by nlinarith [mul_le_mul hss h2 h1 (hs.trans hss)]⟩

theorem pe_strict {c0 c1 : ℤ} {l : List ℤ} (h1 : 0 < c1) (h : ∀ c ∈ l, 0 ≤ c) {s s' : ℝ} (hs : 0 ≤ s) (hss : s < s') :
    pe (c0 :: c1 :: l) s < pe (c0 :: c1 :: l) s' := by
  obtain ⟨a, b⟩ := pe_nonneg h hs hss.le
  have h1' : (0 : ℝ) < c1 := by exact_mod_cast h1
  simp only [pe]
  have := mul_le_mul hss.le b a (hs.trans hss.le)
  have h3 : (0 : ℝ) < c1 + s * pe l s := by positivity
  have h4 : (c1 : ℝ) + s * pe l s ≤ c1 + s' * pe l s' := by linarith
  have h5 : s * (c1 + s * pe l s) < s' * (c1 + s * pe l s) := mul_lt_mul_of_pos_right hss h3
  have h6 : s' * (c1 + s * pe l s) ≤ s' * (c1 + s' * pe l s') := mul_le_mul_of_nonneg_left h4 (hs.trans hss.le)
  linarith

/-- Sum of the absolute values of the coefficients -/
def sabs : List ℤ → ℤ
  | [] => 0
  | c :: l => |c| + sabs l

/-- Lipschitz constant on the unit interval -/
def lipc : List ℤ → ℤ
  | [] => 0
  | _ :: l => lipc l + sabs l

theorem pe_sabs (l : List ℤ) {u : ℝ} (h0 : 0 ≤ u) (h1 : u ≤ 1) : |pe l u| ≤ sabs l := by
  induction l with
  | nil => simp [pe, sabs]
  | cons c l ih =>
    simp only [pe, sabs]
    push_cast
    refine (abs_add_le _ _).trans ?_
    rw [abs_mul, abs_of_nonneg h0]
    have := mul_le_mul h1 ih (abs_nonneg _) zero_le_one
    linarith

theorem pe_lip (l : List ℤ) {u v : ℝ} (h0 : 0 ≤ u) (h1 : u ≤ 1) (g0 : 0 ≤ v) (g1 : v ≤ 1) :
    |pe l u - pe l v| ≤ lipc l * |u - v| := by
  induction l with
  | nil => simp [pe, lipc]
  | cons c l ih =>
    simp only [pe, lipc]
    have e : (c : ℝ) + u * pe l u - (c + v * pe l v) = u * (pe l u - pe l v) + (u - v) * pe l v := by ring
    rw [e]
    refine (abs_add_le _ _).trans ?_
    rw [abs_mul, abs_mul, abs_of_nonneg h0]
    have a := mul_le_mul h1 ih (abs_nonneg _) zero_le_one
    have b := mul_le_mul_of_nonneg_left (pe_sabs l g0 g1) (abs_nonneg (u - v))
    push_cast
    linarith

/-! ## The polynomials of even and odd degree as polynomials in `y ^ 2` -/

/-- Multiples of `C_{2n}` and `C_{2n+1} / y` with the parameter 3/4 -/
def eo : ℕ → List ℤ × List ℤ
  | 0 => ([1], [6])
  | n + 1 =>
    let e := lin (2 * (8 * n + 7)) (-((8 * n + 6) * (4 * (2 * n + 1)))) (0 :: (eo n).2) (eo n).1
    (e, lin (2 * (8 * n + 11)) (-((8 * n + 10) * (8 * (n + 1)))) e (eo n).2)

/-- The polynomial of degree `2 n` -/
def ep (n : ℕ) : List ℤ := (eo n).1

/-- The factor -/
noncomputable def esc (m : ℕ) : ℝ := 4 ^ m * m.factorial

theorem esc_pos (m : ℕ) : 0 < esc m := by
  unfold esc
  have := m.factorial_pos
  positivity

theorem esc_succ (m : ℕ) : esc (m + 1) = 4 * (m + 1) * esc m := by
  unfold esc
  rw [pow_succ, Nat.factorial_succ]
  push_cast
  ring

theorem eo_eq (y : ℝ) : ∀ n, pe (eo n).1 (y ^ 2) = esc (2 * n) * gegen (3 / 4) (2 * n) y ∧
    y * pe (eo n).2 (y ^ 2) = esc (2 * n + 1) * gegen (3 / 4) (2 * n + 1) y
  | 0 => by
    simp [eo, pe, esc, gegen]
    ring
  | n + 1 => by
    obtain ⟨h1, h2⟩ := eo_eq y n
    have s1 : esc (2 * n + 1) = 4 * (2 * n + 1) * esc (2 * n) := by
      have := esc_succ (2 * n)
      push_cast at this
      exact this
    have s2 : esc (2 * n + 2) = 4 * (2 * n + 2) * esc (2 * n + 1) := by
      have := esc_succ (2 * n + 1)
      push_cast at this
      rw [this]
      ring
    have s3 : esc (2 * n + 3) = 4 * (2 * n + 3) * esc (2 * n + 2) := by
      have := esc_succ (2 * n + 2)
      push_cast at this
      rw [this]
      ring
    have hn2 : (2 * (n : ℝ) + 2) ≠ 0 := by positivity
    have hn3 : (2 * (n : ℝ) + 1 + 2) ≠ 0 := by positivity
    have g1 : esc (2 * n + 2) * gegen (3 / 4) (2 * n + 2) y
        = 2 * (8 * n + 7) * y * (esc (2 * n + 1) * gegen (3 / 4) (2 * n + 1) y)
          - (8 * n + 6) * (4 * (2 * n + 1)) * (esc (2 * n) * gegen (3 / 4) (2 * n) y) := by
      rw [gegen, s2, s1]
      push_cast
      field_simp
      ring
    have g2 : esc (2 * n + 3) * gegen (3 / 4) (2 * n + 3) y
        = 2 * (8 * n + 11) * y * (esc (2 * n + 2) * gegen (3 / 4) (2 * n + 2) y)
          - (8 * n + 10) * (8 * (n + 1)) * (esc (2 * n + 1) * gegen (3 / 4) (2 * n + 1) y) := by
      rw [show 2 * n + 3 = 2 * n + 1 + 2 by ring, gegen, show 2 * n + 1 + 2 = 2 * n + 3 by ring, s3, s2]
      push_cast
      rw [show 2 * n + 1 + 1 = 2 * n + 2 by ring]
      field_simp
      ring
    have k1 : pe (eo (n + 1)).1 (y ^ 2) = esc (2 * n + 2) * gegen (3 / 4) (2 * n + 2) y := by
      rw [g1, ← h1, ← h2]
      simp only [eo, pe_lin, pe]
      push_cast
      ring
    refine ⟨k1, ?_⟩
    rw [show 2 * (n + 1) + 1 = 2 * n + 3 by ring, g2, ← k1, ← h2]
    have : (eo (n + 1)).2 = lin (2 * (8 * n + 11)) (-((8 * n + 10) * (8 * (n + 1)))) (eo (n + 1)).1 (eo n).2 := rfl
    rw [this, pe_lin]
    push_cast
    ring

theorem ep_eq (n : ℕ) (y : ℝ) : pe (ep n) (y ^ 2) = esc (2 * n) * gegen (3 / 4) (2 * n) y := (eo_eq y n).1

theorem gegen_eq_pe (n : ℕ) (y : ℝ) : gegen (3 / 4) (2 * n) y = pe (ep n) (y ^ 2) / esc (2 * n) := by
  rw [ep_eq, mul_div_cancel_left₀ _ (esc_pos _).ne']

theorem gegen_deriv (n : ℕ) (y : ℝ) : deriv (gegen (3 / 4) (2 * n)) y = pe (der (ep n)) (y ^ 2) * (2 * y) / esc (2 * n) := by
  have e : gegen (3 / 4) (2 * n) = fun y => pe (ep n) (y ^ 2) / esc (2 * n) := funext (gegen_eq_pe n)
  rw [e]
  have h1 : HasDerivAt (fun y : ℝ => y ^ 2) (2 * y) y := by
    have := hasDerivAt_pow 2 y
    simpa using this
  have h2 : HasDerivAt (fun y => pe (ep n) (y ^ 2)) (pe (der (ep n)) (y ^ 2) * (2 * y)) y :=
    HasDerivAt.comp y (pe_hasDerivAt (ep n) (y ^ 2)) h1
  exact (h2.div_const _).deriv

theorem gegen_deriv_zero {n : ℕ} {y : ℝ} (hy : 0 < y) : deriv (gegen (3 / 4) (2 * n)) y = 0 ↔ pe (der (ep n)) (y ^ 2) = 0 := by
  rw [gegen_deriv, div_eq_zero_iff, mul_eq_zero]
  constructor
  · rintro ((h | h) | h)
    · exact h
    · linarith
    · exact absurd h (esc_pos _).ne'
  · exact fun h => Or.inl (Or.inl h)

/-! ## The last side lobe -/

/-- Unit of the position of the side lobe -/
def Du : ℤ := 10 ^ 200

/-- The coefficients except the first one are nonnegative, and the second one is positive. -/
def tailPos : List ℤ → Bool
  | _ :: c :: l => decide (0 < c) && l.all fun c => decide (0 ≤ c)
  | _ => false

theorem tailPos_strict {l : List ℤ} (h : tailPos l = true) {s s' : ℝ} (hs : 0 ≤ s) (hss : s < s') : pe l s < pe l s' := by
  match l with
  | [] => exact absurd h (by decide)
  | [_] => exact absurd h (by simp [tailPos])
  | c0 :: c1 :: l =>
    simp only [tailPos, Bool.and_eq_true, decide_eq_true_eq, List.all_eq_true] at h
    exact pe_strict h.1 h.2 hs hss

/-- The square of the position of the last side lobe is between `U / Du` and `(U + 1) / Du`, `sg` is the sign of the derivative below it.
The derivative is strictly monotonic up to `cn / cd`. -/
def lobeCheck (n : ℕ) (sg cn cd U : ℤ) : Bool :=
  let d := der (ep n)
  tailPos ((shf cn cd d).1.map (sg * ·)) && decide (0 < sg * (hev U Du d).1) && decide (sg * (hev (U + 1) Du d).1 < 0) &&
    decide (0 < U) && decide ((U + 1) * cd ≤ cn * Du) && decide (0 < cd) && decide (cn ≤ cd)

theorem Du_pos : (0 : ℤ) < Du := by norm_num [Du]

theorem lobe_root {n : ℕ} {sg cn cd U : ℤ} (h : lobeCheck n sg cn cd U = true) :
    ∃ u : ℝ, (U : ℝ) / Du ≤ u ∧ u ≤ (U + 1 : ℤ) / Du ∧ 0 < u ∧ u ≤ 1 ∧ pe (der (ep n)) u = 0 ∧
      ∀ v : ℝ, 0 ≤ v → v ≤ u → pe (der (ep n)) v = 0 → v = u := by
  simp only [lobeCheck, Bool.and_eq_true, decide_eq_true_eq] at h
  obtain ⟨⟨⟨⟨⟨⟨hm, h0⟩, h1⟩, hU⟩, hc⟩, hcd⟩, hcn⟩ := h
  set d := der (ep n)
  have hDu : (0 : ℝ) < Du := by exact_mod_cast Du_pos
  have hcd' : (0 : ℝ) < cd := by exact_mod_cast hcd
  have p0 : 0 < sg * pe d (U / Du) := by
    have e := hev_eq (a := U) Du_pos d
    have q : (0 : ℝ) < (hev U Du d).2 := by exact_mod_cast hev_pos Du_pos d
    have h0' : (0 : ℝ) < sg * (hev U Du d).1 := by exact_mod_cast h0
    rw [e] at h0'
    by_contra hn
    nlinarith
  have p1 : sg * pe d ((U + 1 : ℤ) / Du) < 0 := by
    have e := hev_eq (a := U + 1) Du_pos d
    have q : (0 : ℝ) < (hev (U + 1) Du d).2 := by exact_mod_cast hev_pos Du_pos d
    have h0' : (sg * (hev (U + 1) Du d).1 : ℝ) < 0 := by exact_mod_cast h1
    rw [e] at h0'
    by_contra hn
    nlinarith
  have hle : (U : ℝ) / Du ≤ (U + 1 : ℤ) / Du := by
    gcongr
    exact_mod_cast (by omega : U ≤ U + 1)
  have hcont : ContinuousOn (fun u => (sg : ℝ) * pe d u) (Set.Icc ((U : ℝ) / Du) ((U + 1 : ℤ) / Du)) :=
    ((continuous_const).mul (pe_continuous d)).continuousOn
  have hmem : (0 : ℝ) ∈ Set.Icc (sg * pe d ((U + 1 : ℤ) / Du)) (sg * pe d ((U : ℝ) / Du)) := ⟨p1.le, p0.le⟩
  obtain ⟨u, ⟨hu0, hu1⟩, hz⟩ := intermediate_value_Icc' hle hcont hmem
  have hz0 : (sg : ℝ) * pe d u = 0 := hz
  have hsg : (sg : ℝ) ≠ 0 := fun hs => by
    rw [hs, zero_mul] at p0
    exact lt_irrefl _ p0
  have hzu : pe d u = 0 := (mul_eq_zero.mp hz0).resolve_left hsg
  have huc : u ≤ cn / cd := by
    refine hu1.trans ?_
    rw [div_le_div_iff₀ hDu hcd']
    exact_mod_cast hc
  have hc1 : (cn : ℝ) / cd ≤ 1 := by
    rw [div_le_one hcd']
    exact_mod_cast hcn
  have hu00 : 0 < u := by
    refine lt_of_lt_of_le ?_ hu0
    have : (0 : ℝ) < U := by exact_mod_cast hU
    positivity
  refine ⟨u, hu0, hu1, hu00, huc.trans hc1, hzu, fun v hv hvu hpv => ?_⟩
  by_contra hne
  have hlt : v < u := lt_of_le_of_ne hvu hne
  have hs : (0 : ℝ) ≤ cn - cd * u := by
    rw [le_div_iff₀ hcd'] at huc
    linarith
  have hs' : (cn : ℝ) - cd * u < cn - cd * v := by nlinarith
  have := tailPos_strict hm hs hs'
  rw [pe_map, pe_map, shf_eq hcd, shf_eq hcd] at this
  have e1 : ((cn : ℝ) - (cn - cd * u)) / cd = u := by field_simp; ring
  have e2 : ((cn : ℝ) - (cn - cd * v)) / cd = v := by field_simp; ring
  rw [e1, e2, hzu, hpv] at this
  exact lt_irrefl _ this

/-- The position of the last side lobe -/
theorem lobe_iff {n : ℕ} {sg cn cd U : ℤ} (h : lobeCheck n sg cn cd U = true) :
    ∃ u : ℝ, (U : ℝ) / Du ≤ u ∧ u ≤ (U + 1 : ℤ) / Du ∧ 0 < u ∧ u ≤ 1 ∧ LastLobe n (3 / 4) (Real.sqrt u) ∧
      ∀ y, LastLobe n (3 / 4) y → y ^ 2 = u := by
  obtain ⟨u, hu0, hu1, hp, h1, hz, hu⟩ := lobe_root h
  have hs : 0 < Real.sqrt u := Real.sqrt_pos.mpr hp
  have hss : Real.sqrt u ^ 2 = u := Real.sq_sqrt hp.le
  have hzs : deriv (gegen (3 / 4) (2 * n)) (Real.sqrt u) = 0 := by rw [gegen_deriv_zero hs, hss, hz]
  refine ⟨u, hu0, hu1, hp, h1, ⟨hs, hzs, fun z hz0 hzu hzz => ?_⟩, fun y hy => ?_⟩
  · rw [gegen_deriv_zero hz0] at hzz
    have hlt : z ^ 2 < u := by
      rw [← hss]
      exact pow_lt_pow_left₀ hzu hz0.le (by norm_num)
    exact hlt.ne (hu _ (by positivity) hlt.le hzz)
  · obtain ⟨hy0, hyz, hyl⟩ := hy
    have hle : y ≤ Real.sqrt u := not_lt.mp fun hlt => hyl _ hs hlt hzs
    rw [gegen_deriv_zero hy0] at hyz
    refine hu _ (by positivity) ?_ hyz
    rw [← hss]
    exact pow_le_pow_left₀ hy0.le hle 2

/-! ## The parameter of the window -/

/-- Unit of the parameter `x` -/
def Dx : ℤ := 10 ^ 110

theorem Dx_pos : (0 : ℤ) < Dx := by norm_num [Dx]

/-- The parameter of the window is between `X / Dx` and `(X + 1) / Dx` if the attenuation is `k / 4` dB. -/
def attCheck (n k : ℕ) (U X : ℤ) : Bool :=
  let e := ep n
  let v := hev U Du e
  let lo := |v.1| * Du - lipc e * v.2
  let hi := |v.1| * Du + lipc e * v.2
  let g := hev (X ^ 2) (Dx ^ 2) e
  let g' := hev ((X + 1) ^ 2) (Dx ^ 2) e
  decide (0 < lo) && decide (Dx ≤ X) && decide (4 * (X + 1) ≤ 5 * Dx) &&
    decide ((g.1 * (v.2 * Du)).toNat ^ 80 < 10 ^ k * (lo * g.2).toNat ^ 80) &&
    decide (10 ^ k * (hi * g'.2).toNat ^ 80 < (g'.1 * (v.2 * Du)).toNat ^ 80)

theorem toNat_real {z : ℤ} (h : 0 ≤ z) : ((z.toNat : ℕ) : ℝ) = z := by
  have := Int.toNat_of_nonneg h
  exact_mod_cast this

theorem att_bracket {n k : ℕ} {U X : ℤ} {u : ℝ} (h : attCheck n k U X = true) (h0 : (U : ℝ) / Du ≤ u) (h1 : u ≤ (U + 1 : ℤ) / Du)
    (hU : 0 < U) (hu : 0 < u) (hu1 : u ≤ 1) :
    0 < |pe (ep n) u| ∧ 1 ≤ (X : ℝ) / Dx ∧ ((X + 1 : ℤ) : ℝ) / Dx ≤ 5 / 4 ∧
      (pe (ep n) ((X / Dx : ℝ) ^ 2) / |pe (ep n) u|) ^ 80 < 10 ^ k ∧
      (10 : ℝ) ^ k < (pe (ep n) (((X + 1 : ℤ) / Dx : ℝ) ^ 2) / |pe (ep n) u|) ^ 80 := by
  simp only [attCheck, Bool.and_eq_true, decide_eq_true_eq] at h
  obtain ⟨⟨⟨⟨hlo, hX⟩, hX1⟩, hg⟩, hg'⟩ := h
  have hDu : (0 : ℝ) < Du := by exact_mod_cast Du_pos
  have hDx : (0 : ℝ) < Dx := by exact_mod_cast Dx_pos
  have hDx2 : (0 : ℤ) < Dx ^ 2 := pow_pos Dx_pos 2
  set e := ep n with he
  set v := hev U Du e
  set g := hev (X ^ 2) (Dx ^ 2) e with hgd
  set g' := hev ((X + 1) ^ 2) (Dx ^ 2) e with hgd'
  have v2 : (0 : ℤ) < v.2 := hev_pos Du_pos e
  have g2 : (0 : ℤ) < g.2 := hev_pos hDx2 e
  have g2' : (0 : ℤ) < g'.2 := hev_pos hDx2 e
  have v2' : (0 : ℝ) < v.2 := by exact_mod_cast v2
  have g2r : (0 : ℝ) < g.2 := by exact_mod_cast g2
  have g2r' : (0 : ℝ) < g'.2 := by exact_mod_cast g2'
  have ev : (v.1 : ℝ) = v.2 * pe e (U / Du) := hev_eq Du_pos e
  have eg : (g.1 : ℝ) = g.2 * pe e ((X / Dx : ℝ) ^ 2) := by
    have := hev_eq (a := X ^ 2) hDx2 e
    rw [div_pow]
    push_cast at this
    exact this
  have eg' : (g'.1 : ℝ) = g'.2 * pe e (((X + 1 : ℤ) / Dx : ℝ) ^ 2) := by
    have := hev_eq (a := (X + 1) ^ 2) hDx2 e
    rw [div_pow]
    push_cast at this ⊢
    exact this
  have hx1 : 1 ≤ (X : ℝ) / Dx := by
    rw [le_div_iff₀ hDx, one_mul]
    exact_mod_cast hX
  have hx2 : ((X + 1 : ℤ) : ℝ) / Dx ≤ 5 / 4 := by
    rw [div_le_div_iff₀ hDx (by norm_num)]
    have : (4 * (X + 1 : ℤ) : ℝ) ≤ 5 * Dx := by exact_mod_cast hX1
    linarith
  have hx1' : 1 ≤ ((X + 1 : ℤ) : ℝ) / Dx := by
    refine hx1.trans ?_
    gcongr
    exact_mod_cast (by omega : X ≤ X + 1)
  -- the side lobe
  have hU0 : (0 : ℝ) ≤ (U : ℝ) / Du := by
    have : (0 : ℝ) < U := by exact_mod_cast hU
    positivity
  have hU1 : (U : ℝ) / Du ≤ 1 := h0.trans hu1
  have hdist : |u - (U : ℝ) / Du| ≤ 1 / Du := by
    rw [abs_of_nonneg (by linarith)]
    push_cast at h1
    rw [add_div] at h1
    linarith
  have hL : (0 : ℝ) ≤ lipc e := by
    by_contra hn
    have h2 := pe_lip e zero_le_one le_rfl le_rfl zero_le_one
    rw [sub_zero, abs_one, mul_one] at h2
    have := abs_nonneg (pe e 1 - pe e 0)
    linarith
  have hlip : |pe e u - pe e (U / Du)| ≤ lipc e * (1 / Du) :=
    (pe_lip e hu.le hu1 hU0 hU1).trans (mul_le_mul_of_nonneg_left hdist hL)
  have habs1 : |pe e (U / Du)| - lipc e * (1 / Du) ≤ |pe e u| := by
    have := abs_sub_abs_le_abs_sub (pe e (U / Du)) (pe e u)
    rw [abs_sub_comm] at this
    linarith
  have habs2 : |pe e u| ≤ |pe e (U / Du)| + lipc e * (1 / Du) := by
    have := abs_sub_abs_le_abs_sub (pe e u) (pe e (U / Du))
    linarith
  have evabs : ((|v.1| : ℤ) : ℝ) = v.2 * |pe e (U / Du)| := by
    rw [Int.cast_abs, ev, abs_mul, abs_of_pos v2']
  have elo : ((|v.1| * Du - lipc e * v.2 : ℤ) : ℝ) = v.2 * Du * (|pe e (U / Du)| - lipc e * (1 / Du)) := by
    push_cast
    rw [← Int.cast_abs, evabs]
    field_simp
  have ehi : ((|v.1| * Du + lipc e * v.2 : ℤ) : ℝ) = v.2 * Du * (|pe e (U / Du)| + lipc e * (1 / Du)) := by
    push_cast
    rw [← Int.cast_abs, evabs]
    field_simp
  have hvD : (0 : ℝ) < v.2 * Du := by positivity
  have hlo' : 0 < |pe e (U / Du)| - lipc e * (1 / Du) := by
    have : (0 : ℝ) < (|v.1| * Du - lipc e * v.2 : ℤ) := by exact_mod_cast hlo
    rw [elo] at this
    exact pos_of_mul_pos_right this hvD.le
  have hpe : 0 < |pe e u| := lt_of_lt_of_le hlo' habs1
  -- the main lobe
  have pos_of : ∀ x : ℝ, 1 ≤ x → 0 < pe e (x ^ 2) := fun x hx => by
    rw [he, ep_eq]
    exact mul_pos (esc_pos _) (gegen_pos (by norm_num) hx _).1
  have hp0 := pos_of _ hx1
  have hp1 := pos_of _ hx1'
  have hg1 : 0 ≤ g.1 := by
    have : (0 : ℝ) ≤ g.1 := by
      rw [eg]
      positivity
    exact_mod_cast this
  have hg1' : 0 ≤ g'.1 := by
    have : (0 : ℝ) ≤ g'.1 := by
      rw [eg']
      positivity
    exact_mod_cast this
  have hvDi : (0 : ℤ) ≤ v.2 * Du := (Int.mul_pos v2 Du_pos).le
  refine ⟨hpe, hx1, hx2, ?_, ?_⟩
  · have a : ((g.1 * (v.2 * Du)).toNat : ℝ) ^ 80 < 10 ^ k * (((|v.1| * Du - lipc e * v.2) * g.2).toNat : ℝ) ^ 80 := by exact_mod_cast hg
    rw [toNat_real (Int.mul_nonneg hg1 hvDi), toNat_real (Int.mul_nonneg hlo.le g2.le), Int.cast_mul, Int.cast_mul _ g.2, elo, eg] at a
    rw [div_pow, div_lt_iff₀ (by positivity)]
    have b : (g.2 * pe e ((X / Dx : ℝ) ^ 2) * ((v.2 * Du : ℤ) : ℝ)) ^ 80 = (g.2 * (v.2 * Du) : ℝ) ^ 80 * pe e ((X / Dx : ℝ) ^ 2) ^ 80 := by
      rw [← mul_pow]
      push_cast
      ring
    have c : (10 : ℝ) ^ k * (v.2 * Du * (|pe e (U / Du)| - lipc e * (1 / Du)) * g.2) ^ 80
        = (g.2 * (v.2 * Du) : ℝ) ^ 80 * (10 ^ k * (|pe e (U / Du)| - lipc e * (1 / Du)) ^ 80) := by
      rw [mul_left_comm, ← mul_pow]
      ring
    rw [b, c] at a
    refine lt_of_lt_of_le (lt_of_mul_lt_mul_left a (by positivity)) ?_
    gcongr
  · have a : (10 : ℝ) ^ k * (((|v.1| * Du + lipc e * v.2) * g'.2).toNat : ℝ) ^ 80 < ((g'.1 * (v.2 * Du)).toNat : ℝ) ^ 80 := by exact_mod_cast hg'
    have hhi : (0 : ℤ) ≤ |v.1| * Du + lipc e * v.2 := by
      have hl : (0 : ℤ) ≤ lipc e := by exact_mod_cast hL
      exact add_nonneg (Int.mul_nonneg (abs_nonneg _) Du_pos.le) (Int.mul_nonneg hl v2.le)
    rw [toNat_real (Int.mul_nonneg hg1' hvDi), toNat_real (Int.mul_nonneg hhi g2'.le), Int.cast_mul, Int.cast_mul g'.1, ehi, eg'] at a
    rw [div_pow, lt_div_iff₀ (by positivity)]
    have b : (g'.2 * pe e (((X + 1 : ℤ) / Dx : ℝ) ^ 2) * ((v.2 * Du : ℤ) : ℝ)) ^ 80
        = (g'.2 * (v.2 * Du) : ℝ) ^ 80 * pe e (((X + 1 : ℤ) / Dx : ℝ) ^ 2) ^ 80 := by
      rw [← mul_pow]
      push_cast
      ring
    have c : (10 : ℝ) ^ k * (v.2 * Du * (|pe e (U / Du)| + lipc e * (1 / Du)) * g'.2) ^ 80
        = (g'.2 * (v.2 * Du) : ℝ) ^ 80 * (10 ^ k * (|pe e (U / Du)| + lipc e * (1 / Du)) ^ 80) := by
      rw [mul_left_comm, ← mul_pow]
      ring
    rw [b, c] at a
    refine lt_of_le_of_lt ?_ (lt_of_mul_lt_mul_left a (by positivity))
    gcongr

theorem logb_iff {ρ : ℝ} (h : 0 < ρ) (k : ℕ) : 20 * Real.logb 10 ρ = (k : ℝ) / 4 ↔ ρ ^ 80 = 10 ^ k := by
  have e : (20 * Real.logb 10 ρ = (k : ℝ) / 4) ↔ Real.logb 10 (ρ ^ 80) = k := by
    rw [Real.logb_pow]
    push_cast
    constructor <;> intro h <;> linarith
  rw [e, Real.logb_eq_iff_rpow_eq (by norm_num) (by norm_num) (by positivity), Real.rpow_natCast]
  exact eq_comm

theorem att_iff {n k : ℕ} {sg cn cd U X : ℤ} (hn : 1 ≤ n) (hl : lobeCheck n sg cn cd U = true) (h : attCheck n k U X = true) :
    1 ≤ (X : ℝ) / Dx ∧ ((X + 1 : ℤ) : ℝ) / Dx ≤ 5 / 4 ∧ (∃ x, Atten n (3 / 4) (k / 4) x) ∧
      ∀ x, Atten n (3 / 4) (k / 4) x → (X : ℝ) / Dx ≤ x ∧ x ≤ ((X + 1 : ℤ) : ℝ) / Dx := by
  have hU : 0 < U := by
    simp only [lobeCheck, Bool.and_eq_true, decide_eq_true_eq] at hl
    exact hl.1.1.1.2
  obtain ⟨u, hu0, hu1, hup, hul, hlobe, huniq⟩ := lobe_iff hl
  obtain ⟨hpe, hx1, hx2, hg, hg'⟩ := att_bracket h hu0 hu1 hU hup hul
  have hx1' : 1 ≤ ((X + 1 : ℤ) : ℝ) / Dx := by
    refine hx1.trans ?_
    have hDx : (0 : ℝ) < Dx := by exact_mod_cast Dx_pos
    gcongr
    exact_mod_cast (by omega : X ≤ X + 1)
  have ratio : ∀ x y, y ^ 2 = u → gegen (3 / 4) (2 * n) x / |gegen (3 / 4) (2 * n) y| = pe (ep n) (x ^ 2) / |pe (ep n) u| := by
    intro x y hy
    rw [gegen_eq_pe, gegen_eq_pe, hy, abs_div, abs_of_pos (esc_pos _), div_div_div_cancel_right₀ (esc_pos _).ne']
  have pos_of : ∀ x : ℝ, 1 ≤ x → 0 < pe (ep n) (x ^ 2) / |pe (ep n) u| := fun x hx => by
    rw [ep_eq]
    exact div_pos (mul_pos (esc_pos _) (gegen_pos (by norm_num) hx _).1) hpe
  have mono : ∀ x x' : ℝ, 1 ≤ x → x < x' → pe (ep n) (x ^ 2) / |pe (ep n) u| < pe (ep n) (x' ^ 2) / |pe (ep n) u| := fun x x' hx hxx => by
    rw [ep_eq, ep_eq]
    exact div_lt_div_of_pos_right (mul_lt_mul_of_pos_left (gegen_strictMono (by norm_num) hx hxx (by omega)) (esc_pos _)) hpe
  have mono80 : ∀ x x' : ℝ, 1 ≤ x → x < x' →
      (pe (ep n) (x ^ 2) / |pe (ep n) u|) ^ 80 < (pe (ep n) (x' ^ 2) / |pe (ep n) u|) ^ 80 := fun x x' hx hxx =>
    pow_lt_pow_left₀ (mono x x' hx hxx) (pos_of x hx).le (by norm_num)
  refine ⟨hx1, hx2, ?_, ?_⟩
  · have hle : (X : ℝ) / Dx ≤ ((X + 1 : ℤ) : ℝ) / Dx := by
      by_contra hn
      have := mono80 _ _ hx1' (not_le.mp hn)
      linarith
    have hcont : ContinuousOn (fun x : ℝ => (pe (ep n) (x ^ 2) / |pe (ep n) u|) ^ 80)
        (Set.Icc ((X : ℝ) / Dx) (((X + 1 : ℤ) : ℝ) / Dx)) := by
      have := pe_continuous (ep n)
      exact Continuous.continuousOn (by fun_prop)
    obtain ⟨x, ⟨ha, hb⟩, hx⟩ := intermediate_value_Icc hle hcont ⟨hg.le, hg'.le⟩
    refine ⟨x, hx1.trans ha, Real.sqrt u, hlobe, ?_⟩
    rw [ratio x _ (Real.sq_sqrt hup.le), logb_iff (pos_of x (hx1.trans ha))]
    exact hx
  · rintro x ⟨hx, y, hy, hatt⟩
    rw [ratio x y (huniq y hy), logb_iff (pos_of x hx)] at hatt
    constructor
    · by_contra hn
      have := mono80 _ _ hx (not_le.mp hn)
      linarith
    · by_contra hn
      have := mono80 _ _ hx1' (not_le.mp hn)
      linarith

end Panda.FirDesign
