import Mathlib.Analysis.SpecialFunctions.Trigonometric.Basic
import Mathlib.Tactic.NormNum
import Verif.Proofs.Bernstein

/-!
# Bounds for sums of cosines on an interval

`∑ a_k cos ((2k+1) x)` is a polynomial in `cos x`; its Bernstein coefficients on an interval are computed with integers.
-/

namespace Panda.Bern

/-- Value of the polynomial with coefficients `l`, constant term first. -/
def pe : List ℤ → ℝ → ℝ
  | [], _ => 0
  | a :: l, c => a + c * pe l c

/-- Sum of polynomials. -/
def padd : List ℤ → List ℤ → List ℤ
  | [], q => q
  | p, [] => p
  | a :: p, b :: q => (a + b) :: padd p q

/-- Multiple of a polynomial. -/
def psmul (a : ℤ) : List ℤ → List ℤ
  | [] => []
  | b :: q => a * b :: psmul a q

theorem pe_padd (p q : List ℤ) (c : ℝ) : pe (padd p q) c = pe p c + pe q c := by
  induction p generalizing q with
  | nil => simp [padd, pe]
  | cons a p ih =>
    cases q with
    | nil => simp [padd, pe]
    | cons b q =>
      simp only [padd, pe, ih]
      push_cast
      ring

theorem pe_psmul (a : ℤ) (q : List ℤ) (c : ℝ) : pe (psmul a q) c = a * pe q c := by
  induction q with
  | nil => simp [psmul, pe]
  | cons b q ih =>
    simp only [psmul, pe, ih]
    push_cast
    ring

/-- `k z`, with `z` evaluated first. -/
noncomputable def forceInt {α : Type} (z : ℤ) (k : ℤ → α) : α :=
  Int.rec (fun n => force n fun n => k (.ofNat n)) (fun n => force n fun n => k (.negSucc n)) z

theorem forceInt_eq {α : Type} (z : ℤ) (k : ℤ → α) : forceInt z k = k z := by
  cases z <;> simp only [forceInt, force_eq]

/-- `k l`, with `l` evaluated first. -/
noncomputable def forceInts {α : Type} (l : List ℤ) : (List ℤ → α) → α :=
  List.rec (fun k => k []) (fun a _ ih k => forceInt a fun a => ih fun l => k (a :: l)) l

theorem forceInts_eq {α : Type} (l : List ℤ) (k : List ℤ → α) : forceInts l k = k l := by
  induction l generalizing k with
  | nil => rfl
  | cons a l ih =>
    change forceInt a (fun a => forceInts l fun l => k (a :: l)) = _
    rw [forceInt_eq, ih]

/-- `∑ a_k T_{2k+1}` for Chebyshev polynomials, when `u`, `v` are the polynomials before and at `k = 0`. -/
def oddCheb : List ℤ → List ℤ → List ℤ → List ℤ
  | [], _, _ => []
  | a :: as, u, v =>
    padd (psmul a v) (oddCheb as v (padd (0 :: 0 :: psmul 4 v) (padd (psmul (-2) v) (psmul (-1) u))))

/-- `∑ a_k cos ((2 k + j) x)` -/
noncomputable def cosSum (x : ℝ) : List ℤ → ℕ → ℝ
  | [], _ => 0
  | a :: as, j => a * Real.cos (j * x) + cosSum x as (j + 2)

theorem oddCheb_eq (x : ℝ) (as : List ℤ) (u v : List ℤ) (j : ℕ) (hu : pe u (Real.cos x) = Real.cos ((j : ℝ) * x - 2 * x))
    (hv : pe v (Real.cos x) = Real.cos (j * x)) : pe (oddCheb as u v) (Real.cos x) = cosSum x as j := by
  induction as generalizing u v j with
  | nil => rfl
  | cons a as ih =>
    unfold oddCheb cosSum
    rw [pe_padd, pe_psmul, hv, ih]
    · rw [hv]
      congr 1
      push_cast
      ring
    · rw [pe_padd, pe_padd, pe_psmul, pe_psmul]
      simp only [pe]
      rw [pe_psmul, hu, hv]
      have h1 := Real.cos_add ((j : ℝ) * x) (2 * x)
      have h2 := Real.cos_sub ((j : ℝ) * x) (2 * x)
      have h3 := Real.cos_two_mul x
      rw [show ((j + 2 : ℕ) : ℝ) * x = (j : ℝ) * x + 2 * x by push_cast; ring]
      push_cast
      rw [h3] at h1 h2
      linear_combination (-1 : ℝ) * h1 - h2

/-- Multiplication of a polynomial of degree `d` in Bernstein form by `(d + 1) (L + (H - L) t)`. -/
def mulGo (L H : ℤ) : ℤ → ℕ → List ℤ → List ℤ
  | prev, i, [] => [i * H * prev]
  | prev, i, b :: bs => (((bs.length + 1 : ℕ) : ℤ) * L * b + i * H * prev) :: mulGo L H b (i + 1) bs

/-- Adding a constant. -/
def addAll (a : ℤ) : List ℤ → List ℤ
  | [] => []
  | b :: bs => (b + a) :: addAll a bs

/-- Scale of the result of `toBern`. -/
def bscale (D : ℤ) : List ℤ → ℤ
  | [] => 1
  | _ :: l => match l with
    | [] => 1
    | _ :: _ => bscale D l * (l.length : ℤ) * D

/-- Bernstein coefficients of a polynomial in `c = (L + (H - L) t) / D`, times `bscale`. -/
def toBern (L H D : ℤ) : List ℤ → List ℤ
  | [] => []
  | a :: l => match l with
    | [] => [a]
    | _ :: _ => addAll (a * bscale D (a :: l)) (mulGo L H 0 0 (toBern L H D l))

/-- A list of integers as a sequence of reals. -/
def zseq (l : List ℤ) (i : ℕ) : ℝ := (l.getD i 0 : ℤ)

theorem mulGo_length (L H prev : ℤ) (i : ℕ) (l : List ℤ) : (mulGo L H prev i l).length = l.length + 1 := by
  induction l generalizing prev i with
  | nil => rfl
  | cons b l ih => simp [mulGo, ih]

theorem addAll_length (a : ℤ) (l : List ℤ) : (addAll a l).length = l.length := by
  induction l with
  | nil => rfl
  | cons b l ih => simp [addAll, ih]

theorem addAll_seq (a : ℤ) (l : List ℤ) {i : ℕ} (hi : i < l.length) : zseq (addAll a l) i = zseq l i + a := by
  induction l generalizing i with
  | nil => exact absurd hi (by simp)
  | cons b l ih =>
    cases i with
    | zero => simp [addAll, zseq]
    | succ i =>
      have := ih (i := i) (by simpa using hi)
      simpa [addAll, zseq] using this

theorem mulGo_seq (L H prev : ℤ) (k : ℕ) (l : List ℤ) {i : ℕ} (hi : i ≤ l.length) :
    zseq (mulGo L H prev k l) i =
      ((l.length : ℝ) - i) * L * zseq l i + (k + i : ℕ) * H * zseq (prev :: l) i := by
  induction l generalizing prev k i with
  | nil =>
    have : i = 0 := by simpa using hi
    subst this
    simp [mulGo, zseq]
  | cons b l ih =>
    cases i with
    | zero => simp [mulGo, zseq]
    | succ i =>
      have := ih b (k + 1) (i := i) (by simpa using hi)
      have e : zseq (mulGo L H prev k (b :: l)) (i + 1) = zseq (mulGo L H b (k + 1) l) i := by simp [mulGo, zseq]
      rw [e, this, List.length_cons]
      have e2 : zseq (b :: l) (i + 1) = zseq l i := by simp [zseq]
      have e3 : zseq (prev :: b :: l) (i + 1) = zseq (b :: l) i := by simp [zseq]
      rw [e2, e3]
      push_cast
      ring

theorem toBern_length (L H D : ℤ) (l : List ℤ) : (toBern L H D l).length = l.length := by
  induction l with
  | nil => rfl
  | cons a l ih =>
    cases l with
    | nil => rfl
    | cons b l =>
      unfold toBern
      rw [addAll_length, mulGo_length, ih]
      rfl

theorem toBern_spec (L H D : ℤ) (l : List ℤ) (d : ℕ) (hl : l.length = d + 1) {c t : ℝ} (hc : c * D = L + (H - L) * t) :
    bern d (zseq (toBern L H D l)) t = bscale D l * pe l c := by
  induction l generalizing d with
  | nil => simp at hl
  | cons a l ih =>
    cases l with
    | nil =>
      have : d = 0 := by simpa using hl.symm
      subst this
      simp [toBern, bern, zseq, bscale, pe]
    | cons b l =>
      obtain ⟨e, rfl⟩ : ∃ e, d = e + 1 := ⟨l.length, by simpa using hl.symm⟩
      have he : (b :: l).length = e + 1 := by simpa using hl
      have h1 := ih e he
      have hr : (toBern L H D (b :: l)).length = e + 1 := by rw [toBern_length, he]
      have e1 : toBern L H D (a :: b :: l) =
          addAll (a * bscale D (a :: b :: l)) (mulGo L H 0 0 (toBern L H D (b :: l))) := rfl
      have e2 : bscale D (a :: b :: l) = bscale D (b :: l) * ((b :: l).length : ℤ) * D := rfl
      rw [e1]
      have e3 : bern (e + 1) (zseq (addAll (a * bscale D (a :: b :: l)) (mulGo L H 0 0 (toBern L H D (b :: l))))) t =
          bern (e + 1) (fun i => 1 * (((e : ℝ) + 1 - i) * L * zseq (toBern L H D (b :: l)) i +
            i * H * zseq (toBern L H D (b :: l)) (i - 1)) + 1 * (a * bscale D (a :: b :: l) : ℤ)) t := by
        refine bern_congr (fun i hi => ?_) t
        rw [addAll_seq _ _ (by rw [mulGo_length, hr]; omega), mulGo_seq _ _ _ _ _ (by rw [hr]; omega), hr]
        cases i with
        | zero => simp
        | succ i =>
          have : zseq (0 :: toBern L H D (b :: l)) (i + 1) = zseq (toBern L H D (b :: l)) i := by simp [zseq]
          rw [this, show i + 1 - 1 = i from rfl]
          push_cast
          ring
      rw [e3, bern_lin, bern_mul_linear, bern_const, h1, e2, he]
      simp only [pe]
      push_cast
      linear_combination (-(e + 1 : ℝ) * (bscale D (b :: l) : ℝ) * (b + c * pe l c)) * hc

/-- Adding an offset that makes all elements non-negative; `none` if it does not. -/
def shift (M : ℕ) : List ℤ → Option (List ℕ)
  | [] => some []
  | a :: l => match a + M with
    | .ofNat n => match shift M l with
      | some l => some (n :: l)
      | none => none
    | .negSucc _ => none

theorem shift_length {M : ℕ} {l : List ℤ} {r : List ℕ} (h : shift M l = some r) : r.length = l.length := by
  induction l generalizing r with
  | nil => cases h; rfl
  | cons a l ih =>
    unfold shift at h
    split at h
    · split at h
      · next hr =>
        cases h
        simp [ih hr]
      · cases h
    · cases h

theorem shift_seq {M : ℕ} {l : List ℤ} {r : List ℕ} (h : shift M l = some r) {i : ℕ} (hi : i < l.length) :
    rseq r i = zseq l i + M := by
  induction l generalizing r i with
  | nil => exact absurd hi (by simp)
  | cons a l ih =>
    unfold shift at h
    split at h
    · next n hn =>
      split at h
      · next r' hr =>
        cases h
        cases i with
        | zero =>
          have : ((a + M : ℤ) : ℝ) = ((Int.ofNat n : ℤ) : ℝ) := by rw [hn]
          simp only [rseq, zseq, List.getD_cons_zero]
          push_cast at this
          rw [this]
          simp
        | succ i =>
          have := ih hr (i := i) (by simpa using hi)
          simpa [rseq, zseq] using this
      · cases h
    · cases h

/-! The same functions for evaluation in the kernel: recursors, with every number evaluated before it is used. -/

/-- `padd` -/
noncomputable def paddK (p : List ℤ) : List ℤ → List ℤ :=
  List.rec (fun q => q) (fun a p ih q => List.rec (a :: p) (fun b q _ => forceInt (a + b) fun s => s :: ih q) q) p

theorem paddK_eq (p q : List ℤ) : paddK p q = padd p q := by
  induction p generalizing q with
  | nil => cases q <;> rfl
  | cons a p ih =>
    cases q with
    | nil => rfl
    | cons b q =>
      change forceInt (a + b) (fun s => s :: paddK p q) = _
      rw [forceInt_eq, ih]
      rfl

/-- `psmul` -/
noncomputable def psmulK (a : ℤ) (l : List ℤ) : List ℤ := List.rec [] (fun b _ ih => forceInt (a * b) fun s => s :: ih) l

theorem psmulK_eq (a : ℤ) (l : List ℤ) : psmulK a l = psmul a l := by
  induction l with
  | nil => rfl
  | cons b l ih =>
    change forceInt (a * b) (fun s => s :: psmulK a l) = _
    rw [forceInt_eq, ih]
    rfl

/-- `oddCheb` -/
noncomputable def oddChebK (as : List ℤ) : List ℤ → List ℤ → List ℤ :=
  List.rec (fun _ _ => [])
    (fun a _ ih u v =>
      forceInts (paddK (0 :: 0 :: psmulK 4 v) (paddK (psmulK (-2) v) (psmulK (-1) u))) fun w =>
        forceInts (ih v w) fun r => paddK (psmulK a v) r) as

theorem oddChebK_eq (as u v : List ℤ) : oddChebK as u v = oddCheb as u v := by
  induction as generalizing u v with
  | nil => rfl
  | cons a as ih =>
    change (forceInts (paddK (0 :: 0 :: psmulK 4 v) (paddK (psmulK (-2) v) (psmulK (-1) u))) fun w =>
        forceInts (oddChebK as v w) fun r => paddK (psmulK a v) r) = _
    simp only [forceInts_eq, paddK_eq, psmulK_eq, ih]
    rfl

/-- `mulGo`; `m` is the length of `l`. -/
noncomputable def mulGoK (L H : ℤ) (l : List ℤ) : (prev : ℤ) → (i m : ℕ) → List ℤ :=
  List.rec (fun prev i _ => [(i : ℤ) * H * prev])
    (fun b _ ih prev i m => forceInt ((m : ℤ) * L * b + (i : ℤ) * H * prev) fun s =>
      s :: force (Nat.succ i) fun i => force (Nat.pred m) fun m => ih b i m) l

theorem mulGoK_eq (L H : ℤ) (l : List ℤ) (prev : ℤ) (i : ℕ) : mulGoK L H l prev i l.length = mulGo L H prev i l := by
  induction l generalizing prev i with
  | nil => rfl
  | cons b l ih =>
    change (forceInt (((l.length + 1 : ℕ) : ℤ) * L * b + (i : ℤ) * H * prev) fun s =>
      s :: force (i + 1) fun i => force l.length fun m => mulGoK L H l b i m) = _
    rw [forceInt_eq, force_eq, force_eq, ih]
    rfl

/-- `addAll` -/
noncomputable def addAllK (a : ℤ) (l : List ℤ) : List ℤ := List.rec [] (fun b _ ih => forceInt (b + a) fun s => s :: ih) l

theorem addAllK_eq (a : ℤ) (l : List ℤ) : addAllK a l = addAll a l := by
  induction l with
  | nil => rfl
  | cons b l ih =>
    change forceInt (b + a) (fun s => s :: addAllK a l) = _
    rw [forceInt_eq, ih]
    rfl

/-- Length, `bscale` and `toBern`, passed to `k`. -/
noncomputable def toBernK {α : Type} (L H D : ℤ) (l : List ℤ) : (ℕ → ℤ → List ℤ → α) → α :=
  List.rec (fun k => k 0 1 [])
    (fun a _ ih k => ih fun n s r =>
      Nat.rec (k 1 1 [a])
        (fun _ _ => force (Nat.succ n) fun n' => forceInt (s * (n : ℤ) * D) fun s' =>
          forceInt (a * s') fun t => forceInts (mulGoK L H r 0 0 n) fun r => forceInts (addAllK t r) fun r => k n' s' r) n) l

theorem toBernK_eq {α : Type} (L H D : ℤ) (l : List ℤ) (k : ℕ → ℤ → List ℤ → α) :
    toBernK L H D l k = k l.length (bscale D l) (toBern L H D l) := by
  induction l generalizing k with
  | nil => rfl
  | cons a l ih =>
    change (toBernK L H D l fun n s r =>
      Nat.rec (motive := fun _ => α) (k 1 1 [a])
        (fun _ _ => force (Nat.succ n) fun n' => forceInt (s * (n : ℤ) * D) fun s' =>
          forceInt (a * s') fun t => forceInts (mulGoK L H r 0 0 n) fun r =>
            forceInts (addAllK t r) fun r => k n' s' r) n) = _
    rw [ih]
    cases l with
    | nil => rfl
    | cons b l =>
      change (force ((b :: l).length + 1) fun n' => forceInt (bscale D (b :: l) * ((b :: l).length : ℤ) * D) fun s' =>
          forceInt (a * s') fun t => forceInts (mulGoK L H (toBern L H D (b :: l)) 0 0 (b :: l).length) fun r =>
            forceInts (addAllK t r) fun r => k n' s' r) = _
      simp only [force_eq, forceInt_eq, forceInts_eq, addAllK_eq]
      have h := mulGoK_eq L H (toBern L H D (b :: l)) 0 0
      rw [toBern_length] at h
      rw [h]
      rfl

/-- `shift`, passed to `k`; `false` if it fails. -/
noncomputable def shiftK (M : ℤ) (l : List ℤ) : (List ℕ → Bool) → Bool :=
  List.rec (fun k => k [])
    (fun a _ ih k => Int.rec (fun n => force n fun n => ih fun l => k (n :: l)) (fun _ => false) (a + M)) l

theorem shiftK_eq (M : ℕ) (l : List ℤ) (k : List ℕ → Bool) (h : shiftK M l k = true) : ∃ r, shift M l = some r ∧ k r = true := by
  induction l generalizing k with
  | nil => exact ⟨[], rfl, h⟩
  | cons a l ih =>
    change (Int.rec (fun n => force n fun n => shiftK M l fun l => k (n :: l)) (fun _ => false) (a + M) : Bool) = true at h
    unfold shift
    generalize a + (M : ℤ) = z at h
    cases z with
    | ofNat n =>
      simp only [force_eq] at h
      obtain ⟨r, h1, h2⟩ := ih _ h
      exact ⟨n :: r, by simp only [h1], h2⟩
    | negSucc n => cases h

/-- Checks `one - err ≤ ∑ a_k cos ((2k+1) x) ≤ one + err` for all `x` with `L / D ≤ cos x ≤ 1`. -/
noncomputable def cosCheck (as : List ℤ) (L D one err M depth : ℕ) : Bool :=
  forceInts as fun as => forceInts (oddChebK as [0, 1] [0, 1]) fun p => toBernK L D D p fun n s r =>
    Int.rec
      (fun s => Nat.rec false
        (fun s _ => force (M * (s + 1)) fun M' => shiftK M' r fun l =>
          Nat.ble err (one + M) && (Nat.ble 1 n && (Nat.ble (L + 1) D &&
            force ((s + 1) * (one + M - err)) fun lo => force ((s + 1) * (one + M + err)) fun hi => check n depth lo hi l))) s)
      (fun _ => false) s

theorem cosCheck_sound {as : List ℤ} {L D one err M depth : ℕ} (h : cosCheck as L D one err M depth = true) {x : ℝ}
    (hx : (L : ℝ) ≤ D * Real.cos x) : |cosSum x as 1 - one| ≤ err := by
  unfold cosCheck at h
  rw [forceInts_eq, forceInts_eq, oddChebK_eq, toBernK_eq] at h
  have hp := oddCheb_eq x as [0, 1] [0, 1] 1 (by
    rw [show ((1 : ℕ) : ℝ) * x - 2 * x = -x by push_cast; ring, Real.cos_neg]
    simp [pe]) (by simp [pe])
  generalize oddCheb as [0, 1] [0, 1] = p at h hp
  rcases hs : bscale (D : ℤ) p with (_ | s) | s
  · rw [hs] at h
    cases h
  · rw [hs] at h
    change (force (M * (s + 1)) fun M' => shiftK M' (toBern L D D p) fun l => _) = true at h
    rw [force_eq] at h
    obtain ⟨l, hl, h⟩ := shiftK_eq _ _ _ h
    · simp only [Bool.and_eq_true, Nat.ble_eq, force_eq] at h
      obtain ⟨herr, hlen, hLD', hck⟩ := h
      have hLD : L ≤ D := by omega
      obtain ⟨d, hd⟩ : ∃ d, p.length = d + 1 := ⟨p.length - 1, by omega⟩
      have hll : l.length = d + 1 := by rw [shift_length hl, toBern_length, hd]
      rw [hd] at hck
      have hLDr : (L : ℝ) + 1 ≤ D := by exact_mod_cast hLD'
      have hw : (0 : ℝ) < (D : ℝ) - L := by linarith
      set t : ℝ := (D * Real.cos x - L) / (D - L) with ht
      have h0 : 0 ≤ t := div_nonneg (by linarith) hw.le
      have h1 : t ≤ 1 := by
        rw [ht, div_le_one hw]
        have := Real.cos_le_one x
        nlinarith [Nat.cast_nonneg (α := ℝ) D]
      have hc : Real.cos x * ((D : ℤ) : ℝ) = ((L : ℤ) : ℝ) + (((D : ℤ) : ℝ) - ((L : ℤ) : ℝ)) * t := by
        rw [ht]
        push_cast
        field_simp
        ring
      obtain ⟨b1, b2⟩ := check_sound hll hck h0 h1
      have e := toBern_spec (L : ℤ) (D : ℤ) (D : ℤ) p d hd hc
      have e2 : bern d (rseq l) t = (bscale D p : ℤ) * pe p (Real.cos x) + (M * (s + 1) : ℕ) := by
        rw [← e]
        have := bern_lin d 1 1 (zseq (toBern L D D p)) (fun _ => ((M * (s + 1) : ℕ) : ℝ)) t
        rw [bern_const, one_mul, one_mul] at this
        rw [← this]
        refine bern_congr (fun i hi => ?_) t
        rw [shift_seq hl (by rw [toBern_length, hd]; omega), one_mul]
      rw [e2, hs, hp] at b1 b2
      have hsp : (0 : ℝ) < (s : ℝ) + 1 := by positivity
      have hs' : ((Int.ofNat (s + 1) : ℤ) : ℝ) = (s : ℝ) + 1 := by simp
      rw [hs'] at b1 b2
      rw [Nat.cast_mul, Nat.cast_sub herr] at b1
      push_cast at b1 b2
      rw [abs_le]
      constructor
      · by_contra hcon
        push Not at hcon
        nlinarith
      · by_contra hcon
        push Not at hcon
        nlinarith
  · rw [hs] at h
    cases h

end Panda.Bern
