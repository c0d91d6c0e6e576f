import Verif.Proofs.Subnormal
import Verif.Props.Ringing

/-!
# Cascades of IIR stages as machines

A cascade of IIR stages processes its input block by block; the state of each stage is kept. This makes it possible to follow a
cascade by computation until all stages together are in a cycle.
-/

namespace Panda

section general

variable {F : Type} [Zero F] [Add F] [Sub F] [Mul F]

/-- The state of a chain of sections before sample `n`. -/
def chainBefore (as : List F) (x : ℕ → F) : ℕ → List F
  | 0 => List.replicate (as.length + 1) 0
  | n + 1 => chainState as x n

theorem chainBefore_succ (as : List F) (x : ℕ → F) (n : ℕ) : chainBefore as x (n + 1) = chainNext as (x n) (chainBefore as x n) := by
  cases n with
  | zero => exact chainState_zero as x
  | succ n => exact chainState_succ as x n

theorem chainBefore_last (as : List F) (x : ℕ → F) (n : ℕ) : (chainBefore as x (n + 1)).getLastD 0 = apChain as x n := chainState_last as x n 0

/-- `k` samples, from sample `n` on. -/
def slice (x : ℕ → F) (n : ℕ) : ℕ → List F
  | 0 => []
  | k + 1 => x n :: slice x (n + 1) k

/-- The sections of the two branches. -/
structure Branches (F : Type) where
  b0 : List F
  b1 : List F

/-- What a stage with these branches outputs when upsampling. -/
def Branches.upSeq (M : Branches F) (x : ℕ → F) (n : ℕ) : F := if n % 2 = 0 then apChain M.b0 x (n / 2) else apChain M.b1 x (n / 2)

/-- What a stage with these branches outputs when downsampling. -/
def Branches.downSeq (h : F) (M : Branches F) (x : ℕ → F) (n : ℕ) : F := (apChain M.b1 (evens x) n + apChain M.b0 (odds x) n) * h

/-- State and output of an upsampling stage after a block. -/
def Branches.upRun (M : Branches F) : List F × List F → List F → (List F × List F) × List F
  | s, [] => (s, [])
  | s, x :: xs =>
    match Branches.upRun M (chainNext M.b0 x s.1, chainNext M.b1 x s.2) xs with
    | (s', ys) => (s', (chainNext M.b0 x s.1).getLastD 0 :: (chainNext M.b1 x s.2).getLastD 0 :: ys)

/-- State and output of a downsampling stage after a block. -/
def Branches.downRun (h : F) (M : Branches F) : List F × List F → List F → (List F × List F) × List F
  | s, x :: x' :: xs =>
    match Branches.downRun h M (chainNext M.b0 x' s.1, chainNext M.b1 x s.2) xs with
    | (s', ys) => (s', ((chainNext M.b1 x s.2).getLastD 0 + (chainNext M.b0 x' s.1).getLastD 0) * h :: ys)
  | s, _ => (s, [])

theorem Branches.upRun_slice (M : Branches F) (x : ℕ → F) (n k : ℕ) :
    M.upRun (chainBefore M.b0 x n, chainBefore M.b1 x n) (slice x n k) =
      ((chainBefore M.b0 x (n + k), chainBefore M.b1 x (n + k)), slice (M.upSeq x) (2 * n) (2 * k)) := by
  induction k generalizing n with
  | zero => rfl
  | succ k ih =>
    rw [slice, upRun]
    simp only
    rw [← chainBefore_succ, ← chainBefore_succ, ih, chainBefore_last, chainBefore_last, show n + 1 + k = n + (k + 1) by omega,
      show 2 * (k + 1) = 2 * k + 1 + 1 by ring, slice, slice]
    simp only [upSeq]
    rw [if_pos (by omega), if_neg (by omega), show 2 * n / 2 = n by omega, show (2 * n + 1) / 2 = n by omega,
      show 2 * (n + 1) = 2 * n + 1 + 1 by ring]

theorem Branches.downRun_slice (h : F) (M : Branches F) (x : ℕ → F) (n k : ℕ) :
    M.downRun h (chainBefore M.b0 (odds x) n, chainBefore M.b1 (evens x) n) (slice x (2 * n) (2 * k)) =
      ((chainBefore M.b0 (odds x) (n + k), chainBefore M.b1 (evens x) (n + k)), slice (M.downSeq h x) n k) := by
  induction k generalizing n with
  | zero => rfl
  | succ k ih =>
    rw [show 2 * (k + 1) = 2 * k + 1 + 1 by ring, slice, slice, downRun]
    simp only
    rw [show x (2 * n) = evens x n from rfl, show x (2 * n + 1) = odds x n from rfl, ← chainBefore_succ, ← chainBefore_succ,
      show 2 * n + 1 + 1 = 2 * (n + 1) by ring, ih, chainBefore_last, chainBefore_last, show n + 1 + k = n + (k + 1) by omega]
    rfl

/-- A cascade of upsampling stages. -/
def upSeqs : List (Branches F) → (ℕ → F) → ℕ → F
  | [], x => x
  | M :: Ms, x => upSeqs Ms (M.upSeq x)

/-- A cascade of downsampling stages. -/
def downSeqs (h : F) : List (Branches F) → (ℕ → F) → ℕ → F
  | [], x => x
  | M :: Ms, x => downSeqs h Ms (M.downSeq h x)

/-- States and output of a cascade after a block. -/
def upRuns : List (Branches F) → List (List F × List F) → List F → List (List F × List F) × List F
  | M :: Ms, s :: ss, xs =>
    match M.upRun s xs with
    | (s', ys) =>
      match upRuns Ms ss ys with
      | (ss', zs) => (s' :: ss', zs)
  | _, _, xs => ([], xs)

/-- States and output of a cascade after a block. -/
def downRuns (h : F) : List (Branches F) → List (List F × List F) → List F → List (List F × List F) × List F
  | M :: Ms, s :: ss, xs =>
    match M.downRun h s xs with
    | (s', ys) =>
      match downRuns h Ms ss ys with
      | (ss', zs) => (s' :: ss', zs)
  | _, _, xs => ([], xs)

/-- The states of the stages before input sample `n`. -/
def upBefore : List (Branches F) → (ℕ → F) → ℕ → List (List F × List F)
  | [], _, _ => []
  | M :: Ms, x, n => (chainBefore M.b0 x n, chainBefore M.b1 x n) :: upBefore Ms (M.upSeq x) (2 * n)

/-- The states of the stages before output sample `n`. -/
def downBefore (h : F) : List (Branches F) → (ℕ → F) → ℕ → List (List F × List F)
  | [], _, _ => []
  | M :: Ms, x, n => (chainBefore M.b0 (odds x) (2 ^ Ms.length * n), chainBefore M.b1 (evens x) (2 ^ Ms.length * n)) ::
      downBefore h Ms (M.downSeq h x) n

theorem upRuns_slice (Ms : List (Branches F)) (x : ℕ → F) (n k : ℕ) :
    upRuns Ms (upBefore Ms x n) (slice x n k) = (upBefore Ms x (n + k), slice (upSeqs Ms x) (2 ^ Ms.length * n) (2 ^ Ms.length * k)) := by
  induction Ms generalizing x n k with
  | nil => simp [upRuns, upBefore, upSeqs]
  | cons M Ms ih =>
    rw [upBefore, upRuns, M.upRun_slice]
    simp only
    rw [ih, upBefore, List.length_cons, pow_succ, mul_assoc, mul_assoc, Nat.mul_add]
    rfl

theorem downRuns_slice (h : F) (Ms : List (Branches F)) (x : ℕ → F) (n k : ℕ) :
    downRuns h Ms (downBefore h Ms x n) (slice x (2 ^ Ms.length * n) (2 ^ Ms.length * k)) =
      (downBefore h Ms x (n + k), slice (downSeqs h Ms x) n k) := by
  induction Ms generalizing x n k with
  | nil => simp [downRuns, downBefore, downSeqs]
  | cons M Ms ih =>
    rw [downBefore, downRuns, List.length_cons, pow_succ', mul_assoc, mul_assoc, M.downRun_slice]
    simp only
    rw [ih, downBefore, Nat.mul_add]
    rfl

/-- No samples yet. -/
def atStart (Ms : List (Branches F)) : List (List F × List F) :=
  Ms.map fun M => (List.replicate (M.b0.length + 1) 0, List.replicate (M.b1.length + 1) 0)

theorem upBefore_zero (Ms : List (Branches F)) (x : ℕ → F) : upBefore Ms x 0 = atStart Ms := by
  induction Ms generalizing x with
  | nil => rfl
  | cons M Ms ih =>
    rw [upBefore, Nat.mul_zero, ih]
    rfl

theorem downBefore_zero (h : F) (Ms : List (Branches F)) (x : ℕ → F) : downBefore h Ms x 0 = atStart Ms := by
  induction Ms generalizing x with
  | nil => rfl
  | cons M Ms ih =>
    rw [downBefore, Nat.mul_zero, ih]
    rfl

end general

/-! ## Computation with integers -/

/-- Sections with the numbers as integers. -/
def Branches.toFl (M : Branches Fx) : Branches (Fl binary32) := ⟨M.b0.map Fx.toFl, M.b1.map Fx.toFl⟩

/-- The states of a stage. -/
def toFls (s : List Fx × List Fx) : List (Fl binary32) × List (Fl binary32) := (s.1.map Fx.toFl, s.2.map Fx.toFl)

theorem Fx.getLastD_toFl (l : List Fx) : (l.map Fx.toFl).getLastD 0 = (l.getLastD 0).toFl := by
  rw [← Fx.toFl_zero]
  generalize (0 : Fx) = d
  induction l generalizing d with
  | nil => rfl
  | cons a l ih => rw [List.map_cons, List.getLastD_cons, List.getLastD_cons, ih]

theorem Branches.upRun_toFl (M : Branches Fx) (s : List Fx × List Fx) (xs : List Fx) :
    M.toFl.upRun (toFls s) (xs.map Fx.toFl) = (toFls (M.upRun s xs).1, (M.upRun s xs).2.map Fx.toFl) := by
  induction xs generalizing s with
  | nil => rfl
  | cons x xs ih =>
    rw [List.map_cons, upRun, upRun]
    simp only [Branches.toFl, toFls] at ih ⊢
    rw [Fx.chainNext_toFl, Fx.chainNext_toFl, ih (chainNext M.b0 x s.1, chainNext M.b1 x s.2), Fx.getLastD_toFl, Fx.getLastD_toFl]
    rfl

theorem Branches.downRun_toFl (h : Fx) (M : Branches Fx) (s : List Fx × List Fx) (xs : List Fx) :
    M.toFl.downRun h.toFl (toFls s) (xs.map Fx.toFl) = (toFls (M.downRun h s xs).1, (M.downRun h s xs).2.map Fx.toFl) := by
  induction hl : xs.length using Nat.strong_induction_on generalizing s xs with
  | _ n ih =>
    match xs, hl with
    | [], _ => rfl
    | [x], _ => rfl
    | x :: x' :: xs, hl =>
      have ih := ih xs.length (by simp at hl; omega) (chainNext M.b0 x' s.1, chainNext M.b1 x s.2) xs rfl
      rw [List.map_cons, List.map_cons, downRun, downRun]
      simp only [Branches.toFl, toFls] at ih ⊢
      rw [Fx.chainNext_toFl, Fx.chainNext_toFl, ih, Fx.getLastD_toFl, Fx.getLastD_toFl, ← Fx.toFl_add, ← Fx.toFl_mul]
      rfl

theorem upRuns_toFl (Ms : List (Branches Fx)) (ss : List (List Fx × List Fx)) (xs : List Fx) :
    upRuns (Ms.map Branches.toFl) (ss.map toFls) (xs.map Fx.toFl) = ((upRuns Ms ss xs).1.map toFls, (upRuns Ms ss xs).2.map Fx.toFl) := by
  induction Ms generalizing ss xs with
  | nil => rfl
  | cons M Ms ih =>
    cases ss with
    | nil => rfl
    | cons s ss =>
      rw [List.map_cons, List.map_cons, upRuns, upRuns, M.upRun_toFl]
      simp only
      rw [ih]
      rfl

theorem downRuns_toFl (h : Fx) (Ms : List (Branches Fx)) (ss : List (List Fx × List Fx)) (xs : List Fx) :
    downRuns h.toFl (Ms.map Branches.toFl) (ss.map toFls) (xs.map Fx.toFl) =
      ((downRuns h Ms ss xs).1.map toFls, (downRuns h Ms ss xs).2.map Fx.toFl) := by
  induction Ms generalizing ss xs with
  | nil => rfl
  | cons M Ms ih =>
    cases ss with
    | nil => rfl
    | cons s ss =>
      rw [List.map_cons, List.map_cons, downRuns, downRuns, M.downRun_toFl]
      simp only
      rw [ih]
      rfl

theorem atStart_toFl (Ms : List (Branches Fx)) : (atStart Ms).map toFls = atStart (Ms.map Branches.toFl) := by
  unfold atStart
  rw [List.map_map, List.map_map]
  refine List.map_congr_left fun M _ => ?_
  simp [toFls, Branches.toFl, Fx.toFl_zero]

/-! ## Cycles of length 2 -/

/-- A machine gets the block `b` and then zeros. -/
def cycleAt {σ : Type} (run : σ → List Fx → σ × List Fx) (z : List Fx) (s : σ) (n : ℕ) : σ := (fun s => (run s z).1)^[n] s

/-- `N` blocks of zeros after the block `b` a cycle of length 2 begins; both outputs pass the test. -/
def cycleCert {σ : Type} [DecidableEq σ] (run : σ → List Fx → σ × List Fx) (b z : List Fx) (s : σ) (N : ℕ) (test : List Fx → Bool) : Bool :=
  match cycleAt run z (run s b).1 N with
  | s1 =>
    match run s1 z with
    | (s2, y) =>
      match run s2 z with
      | (s3, y') => decide (s3 = s1) && test y && test y'

theorem cycleCert_all {σ : Type} [DecidableEq σ] {run : σ → List Fx → σ × List Fx} {b z : List Fx} {s : σ} {N : ℕ} {test : List Fx → Bool}
    (h : cycleCert run b z s N test = true) : ∀ n ≥ N, test (run (cycleAt run z (run s b).1 n) z).2 = true := by
  simp only [cycleCert, Bool.and_eq_true, decide_eq_true_eq] at h
  obtain ⟨⟨h1, h2⟩, h3⟩ := h
  set s1 := cycleAt run z (run s b).1 N with hs1
  have key : ∀ n ≥ N, cycleAt run z (run s b).1 n = s1 ∨ cycleAt run z (run s b).1 n = (run s1 z).1 := by
    intro n hn
    induction n, hn using Nat.le_induction with
    | base => exact Or.inl rfl
    | succ n _ ih =>
      have e : cycleAt run z (run s b).1 (n + 1) = (run (cycleAt run z (run s b).1 n) z).1 := by
        unfold cycleAt
        rw [Function.iterate_succ_apply']
      rw [e]
      rcases ih with ih | ih <;> rw [ih]
      · exact Or.inr rfl
      · exact Or.inl h1
  intro n hn
  rcases key n hn with e | e <;> rw [e]
  · exact h2
  · exact h3

/-! ## Sessions -/

theorem apChain_congr {F : Type} [Zero F] [Add F] [Sub F] [Mul F] {as : List F} {x y : ℕ → F} {n : ℕ} (h : ∀ i ≤ n, x i = y i) :
    apChain as x n = apChain as y n := by
  induction as generalizing x y n with
  | nil => exact h n le_rfl
  | cons a as ih => exact ih fun i hi => allpass_congr fun j hj => h j (by omega)

/-- The branches of the stage for rate `k`. -/
def stageBranches (p : ℕ) (sse : Bool) (k : ℕ) : Branches Fx :=
  ⟨(branchDecs (iirDecs k p) 0).map fun d => Fx.ofFl (Sample.ofDouble d.toRat),
   ((branchDecs (iirDecs k p) 1).map fun d => Fx.ofFl (Sample.ofDouble d.toRat)) ++ (if sse = true ∧ (iirDecs k p).length % 2 = 1 then [1] else [])⟩

private theorem ofFl_coefs : ∀ k ∈ [2, 4, 8], ∀ p ∈ [8, 12, 16, 20, 24], ∀ b ∈ [0, 1],
    ((branchDecs (iirDecs k p) b).map fun d => Fx.ofFl (Sample.ofDouble d.toRat)).map Fx.toFl =
      (branchDecs (iirDecs k p) b).map fun d => (Sample.ofDouble d.toRat : Fl binary32) := by decide +kernel

theorem stageBranches_0 {k p : ℕ} (hk : k ∈ [2, 4, 8]) (hp : p ∈ [8, 12, 16, 20, 24]) (sse : Bool) (x : ℕ → Fl binary32) :
    apChain (stageBranches p sse k).toFl.b0 x = branchOut (iirDecs k p).length (seq ((iirDecs k p).map fun d => Sample.ofDouble d.toRat)) 0 x := by
  rw [branchOut_eq_apChain]
  simp only [stageBranches, Branches.toFl]
  rw [ofFl_coefs k hk p hp 0 (by simp)]

theorem stageBranches_1 {k p : ℕ} (hk : k ∈ [2, 4, 8]) (hp : p ∈ [8, 12, 16, 20, 24]) (sse : Bool) (x : ℕ → Fl binary32) :
    apChain (stageBranches p sse k).toFl.b1 x =
      iirBranch1 sse (iirDecs k p).length (seq ((iirDecs k p).map fun d => Sample.ofDouble d.toRat)) x := by
  unfold iirBranch1
  rw [branchOut_eq_apChain]
  simp only [stageBranches, Branches.toFl]
  rw [List.map_append, apChain_append, ofFl_coefs k hk p hp 1 (by simp)]
  split
  · simp only [List.map_cons, List.map_nil, Fx.toFl_one]
    rfl
  · rfl

theorem upSeqs_congr {F : Type} [Zero F] [Add F] [Sub F] [Mul F] (Ms : List (Branches F)) {x y : ℕ → F} {L : ℕ} (h : ∀ i < L, x i = y i) :
    ∀ i < 2 ^ Ms.length * L, upSeqs Ms x i = upSeqs Ms y i := by
  induction Ms generalizing x y L with
  | nil => simpa [upSeqs] using h
  | cons M Ms ih =>
    intro i hi
    rw [List.length_cons, pow_succ, mul_assoc] at hi
    refine ih (L := 2 * L) (fun j hj => ?_) i hi
    unfold Branches.upSeq
    rw [apChain_congr (as := M.b0) (y := y) fun i hi => h i (by omega), apChain_congr (as := M.b1) (y := y) fun i hi => h i (by omega)]

theorem downSeqs_congr {F : Type} [Zero F] [Add F] [Sub F] [Mul F] (hh : F) (Ms : List (Branches F)) {x y : ℕ → F} {L : ℕ}
    (h : ∀ i < 2 ^ Ms.length * L, x i = y i) : ∀ i < L, downSeqs hh Ms x i = downSeqs hh Ms y i := by
  induction Ms generalizing x y L with
  | nil => simpa [downSeqs] using h
  | cons M Ms ih =>
    refine ih fun j hj => ?_
    rw [List.length_cons, pow_succ', mul_assoc] at h
    unfold Branches.downSeq
    rw [apChain_congr (as := M.b0) (x := odds x) (y := odds y) (n := j) fun i hi => h (2 * i + 1) (by omega),
      apChain_congr (as := M.b1) (x := evens x) (y := evens y) (n := j) fun i hi => h (2 * i) (by omega)]

/-- What a cascade of upsampling stages outputs. -/
theorem CascadeRel.upSeqs {p : ℕ} {sse : Bool} (hp : p ∈ [8, 12, 16, 20, 24]) {ks : List ℕ} (hks : ∀ k ∈ ks, k ∈ [2, 4, 8]) {xs ys : List (Fl binary32)}
    (h : CascadeRel (ks.map fun k => iirStageOf .up sse (iirDecs k p)) xs ys) :
    ys.length = 2 ^ ks.length * xs.length ∧
      ∀ i < ys.length, seq ys i = Panda.upSeqs (ks.map fun k => (stageBranches p sse k).toFl) (seq xs) i := by
  induction ks generalizing xs with
  | nil =>
    obtain rfl : ys = xs := h
    exact ⟨by simp, fun i _ => rfl⟩
  | cons k ks ih =>
    obtain ⟨zs, h1, h2⟩ := h
    obtain ⟨i1, i2⟩ := ih (fun k hk => hks k (List.mem_cons_of_mem _ hk)) h2
    have h3 : ∀ i < zs.length, seq zs i = (stageBranches p sse k).toFl.upSeq (seq xs) i := by
      intro i hi
      have := h1.2 (i / 2) (by have := h1.1; omega)
      unfold Branches.upSeq
      rw [stageBranches_0 (hks k (by simp)) hp, stageBranches_1 (hks k (by simp)) hp]
      rw [List.length_map] at this
      split
      · rw [← this.1]
        congr 1
        omega
      · rw [← this.2]
        congr 1
        omega
    refine ⟨by rw [i1, h1.1, List.length_cons, pow_succ, mul_assoc], fun i hi => ?_⟩
    rw [i2 i hi, List.map_cons, Panda.upSeqs]
    exact upSeqs_congr _ h3 i (by rw [List.length_map, ← i1]; exact hi)

/-- What a cascade of downsampling stages outputs. -/
theorem CascadeRel.downSeqs {p : ℕ} {sse : Bool} (hp : p ∈ [8, 12, 16, 20, 24]) {ks : List ℕ} (hks : ∀ k ∈ ks, k ∈ [2, 4, 8])
    {xs ys : List (Fl binary32)} (h : CascadeRel (ks.map fun k => iirStageOf .down sse (iirDecs k p)) xs ys) :
    xs.length = 2 ^ ks.length * ys.length ∧
      ∀ i < ys.length, seq ys i = Panda.downSeqs Sample.half (ks.map fun k => (stageBranches p sse k).toFl) (seq xs) i := by
  induction ks generalizing xs with
  | nil =>
    obtain rfl : ys = xs := h
    exact ⟨by simp, fun i _ => rfl⟩
  | cons k ks ih =>
    obtain ⟨zs, h1, h2⟩ := h
    obtain ⟨i1, i2⟩ := ih (fun k hk => hks k (List.mem_cons_of_mem _ hk)) h2
    have h3 : ∀ i < zs.length, seq zs i = (stageBranches p sse k).toFl.downSeq Sample.half (seq xs) i := by
      intro i hi
      have := h1.2 i hi
      unfold Branches.downSeq
      rw [stageBranches_0 (hks k (by simp)) hp, stageBranches_1 (hks k (by simp)) hp, this, List.length_map]
      split
      · rfl
      · rw [Fl.mul_comm, Fl.add_comm]
    refine ⟨by rw [h1.1, i1, List.length_cons, pow_succ', mul_assoc], fun i hi => ?_⟩
    rw [i2 i hi, List.map_cons, Panda.downSeqs]
    exact downSeqs_congr _ _ (fun i hi => h3 i (by rw [List.length_map, ← i1] at hi; exact hi)) i hi

/-! ## An impulse and zeros -/

theorem seq_impulse {F : Type} [Zero F] (a : F) (Z n : ℕ) : seq (a :: List.replicate Z 0) (n + 1) = 0 := by
  simp only [seq, List.getD_eq_getElem?_getD, List.getElem?_cons_succ, List.getElem?_replicate]
  split <;> rfl

theorem slice_zeros {x : ℕ → Fl binary32} {n : ℕ} (h : ∀ i ≥ n, x i = 0) (k : ℕ) : slice x n k = (List.replicate k (0 : Fx)).map Fx.toFl := by
  induction k generalizing n with
  | zero => rfl
  | succ k ih =>
    rw [slice, h n le_rfl, ih fun i hi => h i (by omega), List.replicate_succ, List.map_cons, Fx.toFl_zero]

theorem slice_getD {F : Type} [Zero F] (x : ℕ → F) (n k j : ℕ) (h : j < k) (d : F) : (slice x n k).getD j d = x (n + j) := by
  induction k generalizing n j with
  | zero => omega
  | succ k ih =>
    cases j with
    | zero => rfl
    | succ j =>
      rw [slice, List.getD_cons_succ, ih _ _ (by omega)]
      congr 1
      omega

/-- The states of an upsampling cascade after an impulse and `n` zeros. -/
theorem upBefore_impulse (Ms : List (Branches Fx)) {a : Fx} {x : ℕ → Fl binary32} (h0 : x 0 = a.toFl) (hx : ∀ n, x (n + 1) = 0) (n : ℕ) :
    upBefore (Ms.map Branches.toFl) x (n + 1) = (cycleAt (upRuns Ms) [0] (upRuns Ms (atStart Ms) [a]).1 n).map toFls := by
  induction n with
  | zero =>
    have e := upRuns_slice (Ms.map Branches.toFl) x 0 1
    rw [upBefore_zero, ← atStart_toFl, show slice x 0 1 = [a].map Fx.toFl by simp [slice, h0], upRuns_toFl] at e
    exact (congrArg Prod.fst e).symm
  | succ n ih =>
    have e := upRuns_slice (Ms.map Branches.toFl) x (n + 1) 1
    rw [ih, show slice x (n + 1) 1 = [(0 : Fx)].map Fx.toFl by simp [slice, hx, Fx.toFl_zero], upRuns_toFl] at e
    refine (congrArg Prod.fst e).symm.trans ?_
    unfold cycleAt
    rw [Function.iterate_succ_apply']

/-- Its output for the zero after that. -/
theorem upSeqs_impulse (Ms : List (Branches Fx)) {a : Fx} {x : ℕ → Fl binary32} (h0 : x 0 = a.toFl) (hx : ∀ n, x (n + 1) = 0) (n : ℕ) :
    slice (upSeqs (Ms.map Branches.toFl) x) (2 ^ Ms.length * (n + 1)) (2 ^ Ms.length) =
      (upRuns Ms (cycleAt (upRuns Ms) [0] (upRuns Ms (atStart Ms) [a]).1 n) [0]).2.map Fx.toFl := by
  have e := upRuns_slice (Ms.map Branches.toFl) x (n + 1) 1
  rw [upBefore_impulse Ms h0 hx, show slice x (n + 1) 1 = [(0 : Fx)].map Fx.toFl by simp [slice, hx, Fx.toFl_zero], upRuns_toFl,
    List.length_map, mul_one] at e
  exact (congrArg Prod.snd e).symm

theorem downBefore_impulse {h : Fx} (hh : h.toFl = Sample.half) (Ms : List (Branches Fx)) {a : Fx} {x : ℕ → Fl binary32} (h0 : x 0 = a.toFl)
    (hx : ∀ n, x (n + 1) = 0) {K : ℕ} (hK : 2 ^ Ms.length = K + 1) (n : ℕ) :
    downBefore Sample.half (Ms.map Branches.toFl) x (n + 1) =
      (cycleAt (downRuns h Ms) (List.replicate (K + 1) 0) (downRuns h Ms (atStart Ms) (a :: List.replicate K 0)).1 n).map toFls := by
  induction n with
  | zero =>
    have e := downRuns_slice Sample.half (Ms.map Branches.toFl) x 0 1
    rw [downBefore_zero, ← atStart_toFl, List.length_map, hK, Nat.mul_zero, Nat.mul_one, slice, h0, slice_zeros fun i hi => ?_, ← List.map_cons,
      ← hh, downRuns_toFl] at e
    · rw [← hh]
      exact (congrArg Prod.fst e).symm
    · obtain ⟨j, rfl⟩ := Nat.exists_eq_add_of_le hi
      rw [show 0 + 1 + j = j + 1 by omega, hx]
  | succ n ih =>
    have e := downRuns_slice Sample.half (Ms.map Branches.toFl) x (n + 1) 1
    rw [ih, List.length_map, hK, Nat.mul_one, slice_zeros fun i hi => ?_, ← hh, downRuns_toFl] at e
    · rw [← hh]
      refine (congrArg Prod.fst e).symm.trans ?_
      unfold cycleAt
      rw [Function.iterate_succ_apply']
    · obtain ⟨j, rfl⟩ : ∃ j, i = j + 1 := ⟨i - 1, by have : 0 < (K + 1) * (n + 1) := by positivity
                                                     omega⟩
      exact hx j

theorem downSeqs_impulse {h : Fx} (hh : h.toFl = Sample.half) (Ms : List (Branches Fx)) {a : Fx} {x : ℕ → Fl binary32} (h0 : x 0 = a.toFl)
    (hx : ∀ n, x (n + 1) = 0) {K : ℕ} (hK : 2 ^ Ms.length = K + 1) (n : ℕ) :
    [downSeqs Sample.half (Ms.map Branches.toFl) x (n + 1)] =
      (downRuns h Ms (cycleAt (downRuns h Ms) (List.replicate (K + 1) 0) (downRuns h Ms (atStart Ms) (a :: List.replicate K 0)).1 n)
        (List.replicate (K + 1) 0)).2.map Fx.toFl := by
  have e := downRuns_slice Sample.half (Ms.map Branches.toFl) x (n + 1) 1
  rw [downBefore_impulse hh Ms h0 hx hK, List.length_map, hK, Nat.mul_one, slice_zeros fun i hi => ?_, ← hh, downRuns_toFl] at e
  · rw [← hh]
    exact (congrArg Prod.snd e).symm
  · obtain ⟨j, rfl⟩ : ∃ j, i = j + 1 := ⟨i - 1, by have : 0 < (K + 1) * (n + 1) := by positivity
                                                   omega⟩
    exact hx j

end Panda
