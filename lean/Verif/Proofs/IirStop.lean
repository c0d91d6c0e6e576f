import Mathlib.Analysis.SpecialFunctions.Complex.Circle
import Verif.Proofs.Cheb
import Verif.Proofs.Response

/-!
# Bounds for the response of half band filters made of all-pass sections

Where the two branches of such a filter have almost the same phase, the filter passes a sinusoid unchanged and suppresses its
mirror image. How far the phases can be apart on an interval is decided by a polynomial in `cos v` with integer coefficients.
-/

namespace Panda.Bern

/-! ## Products of polynomials, evaluated by the kernel -/

/-- Product of polynomials. -/
noncomputable def pmulK (p q : List ℤ) : List ℤ :=
  forceInts p fun p => forceInts q fun q =>
    List.rec [] (fun a _ ih => forceInts ih fun r => forceInts (psmulK a q) fun s => paddK s (0 :: r)) p

theorem pe_pmulK (p q : List ℤ) (c : ℝ) : pe (pmulK p q) c = pe p c * pe q c := by
  simp only [pmulK, forceInts_eq, paddK_eq, psmulK_eq]
  induction p with
  | nil => simp [pe]
  | cons a p ih =>
    simp only [pe_padd, pe_psmul]
    simp only [pe]
    rw [ih]
    push_cast
    ring

/-- Is it zero? -/
noncomputable def isZeroK (z : ℤ) : Bool := Int.rec (fun n => Nat.rec true (fun _ _ => false) n) (fun _ => false) z

theorem isZeroK_eq {z : ℤ} (h : isZeroK z = true) : z = 0 := by
  rcases z with (_ | n) | n
  · rfl
  · cases h
  · cases h

/-- Without zero coefficients at the end. -/
noncomputable def trimK (l : List ℤ) : List ℤ :=
  List.rec [] (fun a _ ih => List.rec (Bool.rec [a] [] (isZeroK a)) (fun b l _ => a :: b :: l) ih) l

theorem pe_trimK (l : List ℤ) (c : ℝ) : pe (trimK l) c = pe l c := by
  induction l with
  | nil => rfl
  | cons a l ih =>
    change pe (List.rec (Bool.rec [a] [] (isZeroK a)) (fun b l _ => a :: b :: l) (trimK l)) c = _
    rw [show pe (a :: l) c = a + c * pe l c from rfl, ← ih]
    cases trimK l with
    | nil =>
      change pe (Bool.rec [a] [] (isZeroK a)) c = _
      cases hz : isZeroK a with
      | false => rfl
      | true =>
        rw [isZeroK_eq hz]
        simp [pe]
    | cons b l => rfl

/-! ## Polynomials that are not negative -/

/-- Sum of the absolute values of the negative elements. -/
noncomputable def negSum (l : List ℤ) : ℕ :=
  List.rec 0 (fun a _ ih => Int.rec (fun _ => ih) (fun n => force (Nat.add (Nat.succ n) ih) fun s => s) a) l

/-- Sum of the other ones. -/
noncomputable def posSum (l : List ℤ) : ℕ :=
  List.rec 0 (fun a _ ih => Int.rec (fun n => force (Nat.add n ih) fun s => s) (fun _ => ih) a) l

/-- Checks that a polynomial is not negative between `L / D` and 1. -/
noncomputable def polyCheck (p : List ℤ) (L D depth : ℕ) : Bool :=
  toBernK L D D p fun n s r =>
    Int.rec
      (fun s => Nat.rec false
        (fun _ _ => force (negSum r) fun M => force (Nat.add (posSum r) M) fun hi => shiftK M r fun l =>
          Nat.ble 1 n && (Nat.ble (L + 1) D && check n depth M hi l)) s)
      (fun _ => false) s

theorem polyCheck_sound {p : List ℤ} {L D depth : ℕ} (h : polyCheck p L D depth = true) {c : ℝ} (h1 : (L : ℝ) ≤ D * c)
    (h2 : c ≤ 1) : 0 ≤ pe p c := by
  unfold polyCheck at h
  rw [toBernK_eq] at h
  rcases hs : bscale (D : ℤ) p with (_ | s) | s
  · rw [hs] at h
    cases h
  · rw [hs] at h
    change (force (negSum (toBern L D D p)) fun M => force (Nat.add (posSum (toBern L D D p)) M) fun hi =>
      shiftK M (toBern L D D p) fun l => _) = true at h
    rw [force_eq, force_eq] at h
    generalize negSum (toBern L D D p) = M at h
    obtain ⟨l, hl, h⟩ := shiftK_eq _ _ _ h
    simp only [Bool.and_eq_true, Nat.ble_eq] at h
    obtain ⟨hlen, hLD', hck⟩ := h
    obtain ⟨d, hd⟩ : ∃ d, p.length = d + 1 := ⟨p.length - 1, by omega⟩
    have hll : l.length = d + 1 := by rw [shift_length hl, toBern_length, hd]
    rw [hd] at hck
    have hLDr : (L : ℝ) + 1 ≤ D := by exact_mod_cast hLD'
    have hw : (0 : ℝ) < (D : ℝ) - L := by linarith
    set t : ℝ := (D * c - L) / (D - L) with ht
    have t0 : 0 ≤ t := div_nonneg (by linarith) hw.le
    have t1 : t ≤ 1 := by
      rw [ht, div_le_one hw]
      nlinarith [Nat.cast_nonneg (α := ℝ) D]
    have hc : c * ((D : ℤ) : ℝ) = ((L : ℤ) : ℝ) + (((D : ℤ) : ℝ) - ((L : ℤ) : ℝ)) * t := by
      rw [ht]
      push_cast
      field_simp
      ring
    obtain ⟨b1, -⟩ := check_sound hll hck t0 t1
    have e := toBern_spec (L : ℤ) (D : ℤ) (D : ℤ) p d hd hc
    have e2 : bern d (rseq l) t = (bscale D p : ℤ) * pe p c + (M : ℕ) := by
      rw [← e]
      have := bern_lin d 1 1 (zseq (toBern L D D p)) (fun _ => ((M : ℕ) : ℝ)) t
      rw [bern_const, one_mul, one_mul] at this
      rw [← this]
      refine bern_congr (fun i hi => ?_) t
      rw [shift_seq hl (by rw [toBern_length, hd]; omega), one_mul]
    rw [e2, hs] at b1
    have hsp : (0 : ℝ) < (s : ℝ) + 1 := by positivity
    have hs' : ((Int.ofNat (s + 1) : ℤ) : ℝ) = (s : ℝ) + 1 := by simp
    rw [hs'] at b1
    by_contra hcon
    push Not at hcon
    nlinarith
  · rw [hs] at h
    cases h

/-! ## Polynomials in `cos v` and `sin v` -/

open Complex

/-- The value `A (cos v) - i sin v B (cos v)`. -/
noncomputable def cval (A B : List ℤ) (v : ℝ) : ℂ := (pe A (Real.cos v) : ℂ) - I * Real.sin v * (pe B (Real.cos v) : ℂ)

/-- Product. -/
noncomputable def cmulK {α : Type} (A B C D : List ℤ) (k : List ℤ → List ℤ → α) : α :=
  forceInts (pmulK A C) fun ac => forceInts (pmulK B D) fun bd => forceInts (pmulK [-1, 0, 1] bd) fun sbd =>
    forceInts (pmulK A D) fun ad => forceInts (pmulK B C) fun bc =>
      forceInts (paddK ac sbd) fun x => forceInts (paddK ad bc) fun y => k x y

theorem cmulK_spec (A B C D : List ℤ) : ∃ X Y : List ℤ, (∀ {α : Type} (k : List ℤ → List ℤ → α), cmulK A B C D k = k X Y) ∧
    ∀ v, cval X Y v = cval A B v * cval C D v := by
  refine ⟨padd (pmulK A C) (pmulK [-1, 0, 1] (pmulK B D)), padd (pmulK A D) (pmulK B C), fun k => ?_, fun v => ?_⟩
  · simp only [cmulK, forceInts_eq, paddK_eq]
  · unfold cval
    rw [pe_padd, pe_padd, pe_pmulK, pe_pmulK, pe_pmulK, pe_pmulK, pe_pmulK]
    have h := Complex.sin_sq_add_cos_sq (v : ℂ)
    simp only [pe]
    push_cast
    linear_combination (pe B (Real.cos v) : ℂ) * (pe D (Real.cos v) : ℂ) * (-(1 - Complex.cos v ^ 2) * Complex.I_sq - I ^ 2 * h)

/-- Square of the absolute value. -/
noncomputable def normK (A B : List ℤ) : List ℤ :=
  forceInts (pmulK A A) fun aa => forceInts (pmulK B B) fun bb => forceInts (pmulK [1, 0, -1] bb) fun sbb => paddK aa sbb

theorem pe_normK (A B : List ℤ) (v : ℝ) : pe (normK A B) (Real.cos v) = normSq (cval A B v) := by
  simp only [normK, forceInts_eq, paddK_eq, pe_padd, pe_pmulK]
  have e : cval A B v = ⟨pe A (Real.cos v), -(Real.sin v * pe B (Real.cos v))⟩ := by
    apply Complex.ext
    · simp [cval, -ofReal_sin]
    · simp [cval, -ofReal_sin]
  rw [e, normSq_mk]
  simp only [pe]
  push_cast
  have h := Real.sin_sq_add_cos_sq v
  linear_combination (- pe B (Real.cos v) ^ 2) * h

/-- Product of `n + d z` (or `d + n z` if `flip`) with `z = e^{-2iv}`, over the coefficients `n / d`. -/
noncomputable def prodK {α : Type} (flip : Bool) (cs : List (ℤ × ℤ)) : (List ℤ → List ℤ → α) → α :=
  List.rec (fun k => k [1] [])
    (fun q _ ih k => ih fun A B =>
      Bool.rec (cmulK [q.1 - q.2, 0, 2 * q.2] [0, 2 * q.2] A B k) (cmulK [q.2 - q.1, 0, 2 * q.1] [0, 2 * q.1] A B k) flip) cs

/-- `e^{iφ}` -/
noncomputable def cis (φ : ℝ) : ℂ := (Real.cos φ : ℂ) + I * (Real.sin φ : ℂ)

theorem cis_zero : cis 0 = 1 := by simp [cis]

theorem cis_add (a b : ℝ) : cis (a + b) = cis a * cis b := by
  unfold cis
  rw [Real.cos_add, Real.sin_add]
  push_cast
  linear_combination (-Complex.sin a * Complex.sin b) * Complex.I_sq

theorem normSq_cis_sub (a b : ℝ) : normSq (cis a - cis b) = 4 * Real.sin ((a - b) / 2) ^ 2 := by
  have e : cis a - cis b = ⟨Real.cos a - Real.cos b, Real.sin a - Real.sin b⟩ := by
    apply Complex.ext
    · simp [cis, -ofReal_sin, -ofReal_cos]
    · simp [cis, -ofReal_sin, -ofReal_cos]
  rw [e, normSq_mk]
  have h1 := Real.cos_sub a b
  have h2 := Real.cos_two_mul ((a - b) / 2)
  rw [show 2 * ((a - b) / 2) = a - b by ring] at h2
  have h3 := Real.sin_sq_add_cos_sq ((a - b) / 2)
  have h4 := Real.sin_sq_add_cos_sq a
  have h5 := Real.sin_sq_add_cos_sq b
  linear_combination h4 + h5 + 2 * h1 - 2 * h2 - 4 * h3

/-- `apPhase`, in complex numbers. -/
theorem cis_apPhase {a : ℝ} (ha : |a| < 1) (θ : ℝ) : cis (apPhase a θ) * (1 + a * cis (-θ)) = a + cis (-θ) := by
  obtain ⟨R, hR, hc, hs⟩ := polar ha θ
  unfold apPhase
  set β := Real.arctan (a * Real.sin θ / (1 + a * Real.cos θ))
  have e : 2 * β - θ = β + β + -θ := by ring
  rw [e, cis_add, cis_add]
  have h1 : (1 : ℂ) + a * cis (-θ) = R * cis (-β) := by
    unfold cis
    rw [Real.cos_neg, Real.sin_neg, Real.cos_neg, Real.sin_neg]
    have hc' : (R : ℂ) * (Real.cos β : ℂ) = 1 + a * (Real.cos θ : ℂ) := by exact_mod_cast hc
    have hs' : (R : ℂ) * (Real.sin β : ℂ) = a * (Real.sin θ : ℂ) := by exact_mod_cast hs
    push_cast at hc' hs' ⊢
    linear_combination I * hs' - hc'
  have h2 : (1 : ℂ) + a * cis θ = R * cis β := by
    unfold cis
    have hc' : (R : ℂ) * (Real.cos β : ℂ) = 1 + a * (Real.cos θ : ℂ) := by exact_mod_cast hc
    have hs' : (R : ℂ) * (Real.sin β : ℂ) = a * (Real.sin θ : ℂ) := by exact_mod_cast hs
    push_cast at hc' hs' ⊢
    linear_combination - I * hs' - hc'
  have h3 : cis β * cis (-β) = 1 := by rw [← cis_add, add_neg_cancel, cis_zero]
  have h4 : cis θ * cis (-θ) = 1 := by rw [← cis_add, add_neg_cancel, cis_zero]
  rw [h1]
  linear_combination cis β * cis (-θ) * R * h3 - cis (-θ) * h2 + a * h4

theorem cval_sec (n d : ℤ) (v : ℝ) : cval [n - d, 0, 2 * d] [0, 2 * d] v = n + d * cis (-(2 * v)) := by
  unfold cval cis
  rw [Real.cos_neg, Real.sin_neg, Real.cos_two_mul, Real.sin_two_mul]
  simp only [pe]
  push_cast
  ring

theorem cval_one (v : ℝ) : cval [1] [] v = 1 := by simp [cval, pe]

theorem cval_u (v : ℝ) : cval [0, 1] [1] v = cis (-v) := by
  unfold cval cis
  rw [Real.cos_neg, Real.sin_neg]
  simp only [pe]
  push_cast
  ring

/-- Phase of the sections with the coefficients `n / d` of a list. -/
noncomputable def listPhase (cs : List (ℤ × ℤ)) (θ : ℝ) : ℝ := (cs.map fun q => apPhase ((q.1 : ℝ) / q.2) θ).sum

theorem prodK_spec (cs : List (ℤ × ℤ)) (hcs : ∀ q ∈ cs, 0 < q.2 ∧ |(q.1 : ℝ) / q.2| < 1) : ∃ A B C D : List ℤ,
    (∀ {α : Type} (k : List ℤ → List ℤ → α), prodK false cs k = k A B) ∧
    (∀ {α : Type} (k : List ℤ → List ℤ → α), prodK true cs k = k C D) ∧
    ∀ v, cval C D v ≠ 0 ∧ cval A B v = cis (listPhase cs (2 * v)) * cval C D v := by
  induction cs with
  | nil =>
    refine ⟨[1], [], [1], [], fun _ => rfl, fun _ => rfl, fun v => ?_⟩
    rw [cval_one]
    simp [listPhase, cis_zero]
  | cons q cs ih =>
    obtain ⟨A, B, C, D, h1, h2, h3⟩ := ih fun q hq => hcs q (List.mem_cons_of_mem _ hq)
    obtain ⟨X, Y, x1, x2⟩ := cmulK_spec [q.1 - q.2, 0, 2 * q.2] [0, 2 * q.2] A B
    obtain ⟨Z, W, z1, z2⟩ := cmulK_spec [q.2 - q.1, 0, 2 * q.1] [0, 2 * q.1] C D
    refine ⟨X, Y, Z, W, fun k => ?_, fun k => ?_, fun v => ?_⟩
    · change (prodK false cs fun A B => cmulK [q.1 - q.2, 0, 2 * q.2] [0, 2 * q.2] A B k) = _
      rw [h1, x1]
    · change (prodK true cs fun A B => cmulK [q.2 - q.1, 0, 2 * q.1] [0, 2 * q.1] A B k) = _
      rw [h2, z1]
    · obtain ⟨hd, hq⟩ := hcs q List.mem_cons_self
      have hd' : (q.2 : ℂ) ≠ 0 := by exact_mod_cast hd.ne'
      have hs := cis_apPhase hq (2 * v)
      have e : ((((q.1 : ℝ) / q.2 : ℝ)) : ℂ) = (q.1 : ℂ) / q.2 := by push_cast; rfl
      rw [e] at hs
      have hs' : cis (apPhase ((q.1 : ℝ) / q.2) (2 * v)) * (q.2 + q.1 * cis (-(2 * v))) = q.1 + q.2 * cis (-(2 * v)) := by
        field_simp at hs
        linear_combination hs
      have hne : (q.2 : ℂ) + q.1 * cis (-(2 * v)) ≠ 0 := by
        intro h0
        have hre := congrArg Complex.re h0
        have e1 : ((q.2 : ℂ) + q.1 * cis (-(2 * v))).re = q.2 + q.1 * Real.cos (-(2 * v)) := by
          simp [cis, -ofReal_sin, -ofReal_cos]
        rw [e1, Complex.zero_re] at hre
        have hpos := one_add_cos_pos hq (-(2 * v))
        have hdr : (0 : ℝ) < q.2 := by exact_mod_cast hd
        have : (q.2 : ℝ) * (1 + (q.1 : ℝ) / q.2 * Real.cos (-(2 * v))) = 0 := by
          rw [← hre]
          field_simp
        nlinarith
      obtain ⟨h4, h5⟩ := h3 v
      rw [x2, z2, cval_sec, cval_sec, h5]
      refine ⟨mul_ne_zero hne h4, ?_⟩
      have e2 : listPhase (q :: cs) (2 * v) = apPhase ((q.1 : ℝ) / q.2) (2 * v) + listPhase cs (2 * v) := by
        simp [listPhase]
      rw [e2, cis_add, ← hs']
      ring

/-- The polynomial that is not negative where `|sin δ| ≤ e / E`, for half the phase difference `δ` of branches with the
coefficients `c0` and `c1`. -/
noncomputable def iirPolyK {α : Type} (c0 c1 : List (ℤ × ℤ)) (e E : ℤ) (k : List ℤ → α) : α :=
  prodK false c0 fun n0 n0' => prodK true c0 fun d0 d0' => prodK false c1 fun n1 n1' => prodK true c1 fun d1 d1' =>
    cmulK n0 n0' d1 d1' fun x x' => cmulK n1 n1' d0 d0' fun y y' => cmulK [0, 1] [1] y y' fun y y' =>
      cmulK d0 d0' d1 d1' fun q q' =>
        forceInts (psmulK (-1) y) fun y => forceInts (psmulK (-1) y') fun y' =>
          forceInts (paddK x y) fun p => forceInts (paddK x' y') fun p' =>
            forceInts (normK p p') fun np => forceInts (normK q q') fun nq =>
              forceInt (4 * (e * e)) fun e2 => forceInt (-(E * E)) fun E2 =>
                forceInts (psmulK e2 nq) fun r => forceInts (psmulK E2 np) fun s => forceInts (paddK r s) fun f =>
                  forceInts (trimK f) k

theorem iirPolyK_spec {c0 c1 : List (ℤ × ℤ)} (e E : ℤ) (h0 : ∀ q ∈ c0, 0 < q.2 ∧ |(q.1 : ℝ) / q.2| < 1)
    (h1 : ∀ q ∈ c1, 0 < q.2 ∧ |(q.1 : ℝ) / q.2| < 1) : ∃ f : List ℤ, (∀ {α : Type} (k : List ℤ → α), iirPolyK c0 c1 e E k = k f) ∧
    ∀ v, ∃ N > 0, pe f (Real.cos v) =
      4 * N * ((e : ℝ) ^ 2 - E ^ 2 * Real.sin ((listPhase c0 (2 * v) - listPhase c1 (2 * v) + v) / 2) ^ 2) := by
  obtain ⟨n0, n0', d0, d0', a1, a2, a3⟩ := prodK_spec c0 h0
  obtain ⟨n1, n1', d1, d1', b1, b2, b3⟩ := prodK_spec c1 h1
  obtain ⟨x, x', x1, x2⟩ := cmulK_spec n0 n0' d1 d1'
  obtain ⟨y, y', y1, y2⟩ := cmulK_spec n1 n1' d0 d0'
  obtain ⟨w, w', w1, w2⟩ := cmulK_spec [0, 1] [1] y y'
  obtain ⟨q, q', q1, q2⟩ := cmulK_spec d0 d0' d1 d1'
  refine ⟨trimK (padd (psmul (4 * (e * e)) (normK q q')) (psmul (-(E * E)) (normK (padd x (psmul (-1) w)) (padd x' (psmul (-1) w'))))),
    fun k => ?_, fun v => ?_⟩
  · unfold iirPolyK
    rw [a1, a2, b1, b2, x1, y1, w1, q1]
    simp only [forceInts_eq, forceInt_eq, paddK_eq, psmulK_eq]
  rw [pe_trimK, pe_padd, pe_psmul, pe_psmul, pe_normK, pe_normK]
  have e1 : cval (padd x (psmul (-1) w)) (padd x' (psmul (-1) w')) v = cval x x' v - cval w w' v := by
    unfold cval
    rw [pe_padd, pe_padd, pe_psmul, pe_psmul]
    push_cast
    ring
  obtain ⟨a4, a5⟩ := a3 v
  obtain ⟨b4, b5⟩ := b3 v
  have e2 : cval x x' v - cval w w' v =
      cval q q' v * (cis (listPhase c0 (2 * v)) - cis (listPhase c1 (2 * v) - v)) := by
    rw [x2, w2, y2, q2, cval_u, a5, b5, sub_eq_add_neg (listPhase c1 (2 * v)) v, cis_add]
    ring
  rw [e1, e2, normSq_mul, normSq_cis_sub, q2]
  refine ⟨normSq (cval d0 d0' v * cval d1 d1' v), normSq_pos.2 (mul_ne_zero a4 b4), ?_⟩
  rw [show listPhase c0 (2 * v) - listPhase c1 (2 * v) + v = listPhase c0 (2 * v) - (listPhase c1 (2 * v) - v) by ring]
  push_cast
  ring

/-- Checks that the branches with the coefficients `c0` and `c1` differ little at low frequencies: `|sin δ| ≤ e / E` for half
their phase difference `δ` wherever `cos v` is between `L / D` and 1. -/
noncomputable def iirCheck (c0 c1 : List (ℤ × ℤ)) (e E : ℤ) (L D depth : ℕ) : Bool :=
  iirPolyK c0 c1 e E fun f => polyCheck f L D depth

theorem iirCheck_sound {c0 c1 : List (ℤ × ℤ)} {e E : ℤ} {L D depth : ℕ} (h : iirCheck c0 c1 e E L D depth = true)
    (h0 : ∀ q ∈ c0, 0 < q.2 ∧ |(q.1 : ℝ) / q.2| < 1) (h1 : ∀ q ∈ c1, 0 < q.2 ∧ |(q.1 : ℝ) / q.2| < 1) (hE : 0 < E) (he : 0 ≤ e)
    {v : ℝ} (hv : (L : ℝ) ≤ D * Real.cos v) :
    |Real.sin ((listPhase c0 (2 * v) - listPhase c1 (2 * v) + v) / 2)| ≤ (e : ℝ) / E := by
  obtain ⟨f, hf, hp⟩ := iirPolyK_spec e E h0 h1
  unfold iirCheck at h
  rw [hf] at h
  have h2 := polyCheck_sound h hv (Real.cos_le_one v)
  obtain ⟨N, hN, e1⟩ := hp v
  rw [e1] at h2
  generalize (Real.sin ((listPhase c0 (2 * v) - listPhase c1 (2 * v) + v) / 2)) = z at h2 ⊢
  have hEr : (0 : ℝ) < E := by exact_mod_cast hE
  have her : (0 : ℝ) ≤ e := by exact_mod_cast he
  rw [le_div_iff₀ hEr]
  have h3 : (z * E) ^ 2 ≤ (e : ℝ) ^ 2 := by
    by_contra hcon
    push Not at hcon
    nlinarith
  have h4 := abs_le_of_sq_le_sq h3 her
  rw [← abs_of_pos hEr, ← abs_mul]
  exact h4

/-- Numerator and denominator of the value of a polynomial at `n / d`. -/
noncomputable def hpeK {α : Type} (n d : ℤ) (l : List ℤ) : (ℤ → ℤ → α) → α :=
  List.rec (fun k => k 0 1)
    (fun a _ ih k => ih fun v s => forceInt (d * s) fun s' => forceInt (a * s' + n * v) fun v' => k v' s') l

theorem hpeK_spec {n d : ℤ} (hd : 0 < d) (l : List ℤ) : ∃ v s : ℤ, (∀ {α : Type} (k : ℤ → ℤ → α), hpeK n d l k = k v s) ∧ 0 < s ∧
    pe l ((n : ℝ) / d) = (v : ℝ) / s := by
  induction l with
  | nil => exact ⟨0, 1, fun _ => rfl, by norm_num, by simp [pe]⟩
  | cons a l ih =>
    obtain ⟨v, s, h1, h2, h3⟩ := ih
    refine ⟨a * (d * s) + n * v, d * s, fun k => ?_, by positivity, ?_⟩
    · change (hpeK n d l fun v s => forceInt (d * s) fun s' => forceInt (a * s' + n * v) fun v' => k v' s') = _
      rw [h1, forceInt_eq, forceInt_eq]
    · have hd' : (d : ℝ) ≠ 0 := by exact_mod_cast hd.ne'
      have hs' : (s : ℝ) ≠ 0 := by exact_mod_cast h2.ne'
      simp only [pe]
      rw [h3]
      push_cast
      field_simp

/-- Checks that `|sin δ| > e / E` where `cos v = n / d`. -/
noncomputable def iirAbove (c0 c1 : List (ℤ × ℤ)) (e E n d : ℤ) : Bool :=
  iirPolyK c0 c1 e E fun f => hpeK n d f fun v _ => Int.rec (fun _ => false) (fun _ => true) v

theorem iirAbove_sound {c0 c1 : List (ℤ × ℤ)} {e E n d : ℤ} (h : iirAbove c0 c1 e E n d = true)
    (h0 : ∀ q ∈ c0, 0 < q.2 ∧ |(q.1 : ℝ) / q.2| < 1) (h1 : ∀ q ∈ c1, 0 < q.2 ∧ |(q.1 : ℝ) / q.2| < 1) (hE : 0 < E) (he : 0 ≤ e)
    (hd : 0 < d) {v : ℝ} (hv : Real.cos v = (n : ℝ) / d) :
    (e : ℝ) / E < |Real.sin ((listPhase c0 (2 * v) - listPhase c1 (2 * v) + v) / 2)| := by
  obtain ⟨f, hf, hp⟩ := iirPolyK_spec e E h0 h1
  unfold iirAbove at h
  rw [hf] at h
  obtain ⟨V, s, g1, g2, g3⟩ := hpeK_spec (n := n) hd f
  rw [g1] at h
  have hV : (V : ℝ) < 0 := by
    cases V with
    | ofNat m => cases h
    | negSucc m => exact_mod_cast Int.negSucc_lt_zero m
  obtain ⟨N, hN, e1⟩ := hp v
  rw [hv, g3] at e1
  have hs : (0 : ℝ) < s := by exact_mod_cast g2
  have h2 : (V : ℝ) / s < 0 := div_neg_of_neg_of_pos hV hs
  rw [e1] at h2
  generalize (Real.sin ((listPhase c0 (2 * v) - listPhase c1 (2 * v) + v) / 2)) = z at h2 ⊢
  have hEr : (0 : ℝ) < E := by exact_mod_cast hE
  have her : (0 : ℝ) ≤ e := by exact_mod_cast he
  rw [div_lt_iff₀ hEr]
  by_contra hcon
  push Not at hcon
  have h3 : (|z| * E) ^ 2 ≤ (e : ℝ) ^ 2 := pow_le_pow_left₀ (by positivity) hcon 2
  rw [mul_pow, sq_abs] at h3
  nlinarith

end Panda.Bern
