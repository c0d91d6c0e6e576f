import Verif.Proofs.AlignedArray
import Mathlib.Tactic.Push
import Mathlib.Tactic.Set
import Mathlib.Tactic.NormNum
import Mathlib.Data.Rat.Defs

/-!
# C37, C38: `AlignedArray`
-/

namespace Panda

variable {T : Type}

/-- What `malloc` guarantees when it returns `p` for a request of `size` bytes: `p` is not null, is not the start of another
live block, and no object lives in the block. -/
structure Mem.Fresh (m : Mem T) (p size : Nat) : Prop where
  nonnull : p ≠ 0
  start : ∀ b ∈ m.live, b.1 ≠ p
  empty : ∀ a, p ≤ a → a < p + size → m.obj a = none

/-- The array stored at `a` is the list `l`: every element is an object that is alive, and its storage is
inside the block that the array owns. -/
structure AlignedArr.Holds (m : Mem T) (a : AlignedArr) (l : List T) : Prop where
  size : a.nElements = l.length
  elem : ∀ i, ∀ h : i < l.length, m.obj (a.at i) = some l[i]
  block : ∃ sz, m.live.find? (fun b => b.1 == a.unalignedMem) = some (a.unalignedMem, sz) ∧
    a.unalignedMem ≤ a.data ∧ a.data + a.nElements * a.sizeofT ≤ a.unalignedMem + sz
  owned : a.unalignedMem ≠ 0
  pos : 0 < a.sizeofT

theorem AlignedArr.new_spec (m : Mem T) (p n s : Nat) (init : T) (hs : 0 < s) (hn : n * s + 126 < 2 ^ 64)
    (hf : m.Fresh p (n * s + 126)) :
    ∃ m' a, AlignedArr.new m p n s init = .ok (m', a) ∧ a = ⟨p, aaAlign p, n, s⟩ ∧
      m'.live = (p, n * s + 126) :: m.live ∧ m'.trace = m.trace ∧ (∀ i < n, m'.obj (a.at i) = some init) ∧
      (∀ b, (∀ i < n, b ≠ a.at i) → m'.obj b = m.obj b) := by
  have hreq : aaRequest n s = n * s + 126 := Nat.mod_eq_of_lt hn
  have hm : m.malloc p (aaRequest n s) = { m with live := (p, n * s + 126) :: m.live } := by
    unfold Mem.malloc
    rw [if_neg hf.nonnull, hreq]
  obtain ⟨m', h, hl, ht, ho, hfr⟩ := construct_loop (m.malloc p (aaRequest n s)) ⟨p, aaAlign p, n, s⟩ s init n (by
    intro i hi
    have h1 := slot_le (s := s) hi
    have h2 := aaAlign_ge p
    have h3 := aaAlign_le p
    rw [hm]
    unfold Mem.inBlock AlignedArr.at
    simp only [List.any_cons, Bool.or_eq_true, Bool.and_eq_true, decide_eq_true_eq]
    left
    constructor <;> omega)
  refine ⟨m', ⟨p, aaAlign p, n, s⟩, ?_, rfl, ?_, ?_, ho, ?_⟩
  · unfold AlignedArr.new
    simp only [h, ok_bind, pure_eq_ok]
  · rw [hl, hm]
  · rw [ht, hm]
  · intro b hb
    rw [hfr b hb, hm]

theorem find_start (l : List (Nat × Nat)) (p sz : Nat) :
    ((p, sz) :: l).find? (fun b => b.1 == p) = some (p, sz) := by simp

/-- **C37 (construction).** Unless the requested size overflows `size_t`, an `AlignedArray` of `n` elements starts at a multiple
of the cache line size, the cache lines it touches lie entirely inside the block obtained from `malloc` (so they
are not shared with anything else), its `n` elements are pairwise disjoint and initialised, and
nothing else in memory changes. -/
theorem C37_construct_partial (m : Mem T) (p n s : Nat) (init : T) (hs : 0 < s) (hn : n * s + 126 < 2 ^ 64)
    (hf : m.Fresh p (n * s + 126)) :
    ∃ m' a, AlignedArr.new m p n s init = .ok (m', a) ∧
      a.at 0 % 64 = 0 ∧ p ≤ a.at 0 / 64 * 64 ∧ (a.at n + 63) / 64 * 64 ≤ p + (n * s + 126) ∧
      (∀ i j, i < j → a.at i + s ≤ a.at j) ∧
      a.Holds m' (List.replicate n init) ∧ m'.trace = m.trace ∧
      (∀ b, (b < p ∨ p + (n * s + 126) ≤ b) → m'.obj b = m.obj b) ∧ m'.live = (p, n * s + 126) :: m.live := by
  obtain ⟨m', a, h, ha, hl, ht, ho, hfr⟩ := AlignedArr.new_spec m p n s init hs hn hf
  have h2 := aaAlign_ge p
  have h3 := aaAlign_le p
  have h4 := aaAlign_mod p
  refine ⟨m', a, h, ?_, ?_, ?_, ?_, ?_, ht, ?_, hl⟩
  · rw [ha]
    simpa [AlignedArr.at] using h4
  · rw [ha]
    simp only [AlignedArr.at, Nat.zero_mul, Nat.add_zero]
    omega
  · rw [ha]
    simp only [AlignedArr.at]
    omega
  · intro i j hij
    rw [ha]
    have := slot_le (s := s) hij
    simp only [AlignedArr.at]
    omega
  · refine ⟨by rw [ha]; simp, ?_, ⟨n * s + 126, ?_, ?_, ?_⟩, ?_, ?_⟩
    · intro i hi
      rw [ho i (by simpa using hi)]
      simp
    · rw [hl, ha]
      exact find_start _ _ _
    · rw [ha]; exact h2
    · rw [ha]
      show aaAlign p + n * s ≤ p + (n * s + 126)
      omega
    · rw [ha]; exact hf.nonnull
    · rw [ha]; exact hs
  · intro b hb
    refine hfr b fun i hi => ?_
    have := AlignedArr.at_lt (a := a) (by rw [ha]; exact hs) hi
    have h5 : a.data = aaAlign p := by rw [ha]
    have h6 : a.sizeofT = s := by rw [ha]
    rw [h5, h6] at this
    omega

/-- An array built from a vector has the elements of the vector. -/
theorem C37_ofVector_partial (m : Mem T) (p s : Nat) (init : T) (l : List T) (hs : 0 < s) (hn : l.length * s + 126 < 2 ^ 64)
    (hf : m.Fresh p (l.length * s + 126)) :
    ∃ m' a, AlignedArr.ofVector m p s init l = .ok (m', a) ∧ a.at 0 % 64 = 0 ∧ a.Holds m' l ∧ m'.trace = m.trace := by
  obtain ⟨m1, a, h, ha, hl, ht, ho, -⟩ := AlignedArr.new_spec m p l.length s init hs hn hf
  obtain ⟨m2, h2, hl2, ht2, ho2, -⟩ := assign_loop m1 a (by rw [ha]; exact hs) (fun i => l.getD i init) l.length
    (fun i hi => by rw [ho i hi]; rfl)
  have h3 := aaAlign_ge p
  have h4 := aaAlign_le p
  refine ⟨m2, a, ?_, ?_, ⟨by rw [ha], ?_, ⟨l.length * s + 126, ?_, ?_, ?_⟩, ?_, ?_⟩, ht2.trans ht⟩
  · unfold AlignedArr.ofVector
    rw [h]
    simp only [ok_bind, h2, pure_eq_ok]
  · rw [ha]
    simpa [AlignedArr.at] using aaAlign_mod p
  · intro i hi
    rw [ho2 i hi, List.getD, List.getElem?_eq_getElem hi]
    rfl
  · rw [hl2, hl, ha]
    exact find_start _ _ _
  · rw [ha]; exact h3
  · rw [ha]
    show aaAlign p + l.length * s ≤ p + (l.length * s + 126)
    omega
  · rw [ha]; exact hf.nonnull
  · rw [ha]; exact hs

/-- Reading an element gives what the array holds. -/
theorem C37_read (m : Mem T) (a : AlignedArr) (l : List T) (h : a.Holds m l) (i : Nat) (hi : i < l.length) :
    a.read m i = .ok l[i] := by
  unfold AlignedArr.read Mem.load
  rw [h.elem i hi]
  rfl

/-- Writing an element changes that element and no other object. -/
theorem C37_write (m : Mem T) (a : AlignedArr) (l : List T) (h : a.Holds m l) (i : Nat) (hi : i < l.length) (v : T) :
    ∃ m', a.write m i v = .ok m' ∧ a.Holds m' (l.set i v) ∧ m'.live = m.live ∧ m'.trace = m.trace ∧
      (∀ b, b ≠ a.at i → m'.obj b = m.obj b) := by
  refine ⟨{ m with obj := fun b => if b = a.at i then some v else m.obj b }, ?_, ?_, rfl, rfl, ?_⟩
  · unfold AlignedArr.write Mem.assign
    rw [h.elem i hi]
    rfl
  · refine ⟨by rw [h.size, List.length_set], ?_, h.block, h.owned, h.pos⟩
    intro j hj
    have hj' : j < l.length := by simpa using hj
    show (if a.at j = a.at i then some v else m.obj (a.at j)) = _
    by_cases e : j = i
    · subst e
      simp
    · rw [if_neg fun h' => e (AlignedArr.at_inj h.pos h'), h.elem j hj', List.getElem_set_ne (fun h => e h.symm)]
  · intro b hb
    exact if_neg hb

/-- **C37 (destruction).** Destroying the array destroys each of its elements exactly once, the last one first, then frees the
block it owns exactly once; no other object and no other block is affected. -/
theorem C37_destroy (m : Mem T) (a : AlignedArr) (l : List T) (h : a.Holds m l) :
    ∃ m', a.destroy m = .ok m' ∧
      m'.trace.reverse = m.trace.reverse ++ (List.range l.length).reverse.map (fun i => MemEvent.dtor (a.at i))
        ++ [MemEvent.free a.unalignedMem] ∧
      m'.live = m.live.eraseP (fun b => b.1 == a.unalignedMem) ∧
      (∀ i < l.length, m'.obj (a.at i) = none) ∧ (∀ b, (∀ i < l.length, b ≠ a.at i) → m'.obj b = m.obj b) := by
  obtain ⟨m', h1, hl, ht, ho, hfr⟩ := destroy_loop a h.pos a.nElements m (by
    intro i hi
    rw [h.elem i (by rw [← h.size]; exact hi)]
    rfl)
  obtain ⟨sz, hsz, -, -⟩ := h.block
  have hany : m'.live.any (fun b => b.1 == a.unalignedMem) = true := by
    rw [hl]
    exact List.any_eq_true.mpr ⟨_, List.mem_of_find?_eq_some hsz, by simp⟩
  rw [h.size] at ho hfr ht
  refine ⟨{ m' with
      live := m'.live.eraseP (fun b => b.1 == a.unalignedMem)
      trace := .free a.unalignedMem :: m'.trace }, ?_, ?_, ?_, ho, hfr⟩
  · unfold AlignedArr.destroy
    rw [h1]
    show m'.free a.unalignedMem = _
    unfold Mem.free
    rw [if_neg h.owned, if_pos hany]
    rfl
  · show (MemEvent.free a.unalignedMem :: m'.trace).reverse = _
    rw [ht]
    simp
  · show m'.live.eraseP _ = _
    rw [hl]

/-- Any sequence of writes with indices in range. -/
theorem C37_writes (a : AlignedArr) (ws : List (Nat × T)) :
    ∀ (m : Mem T) (l : List T), a.Holds m l → (∀ w ∈ ws, w.1 < l.length) →
    ∃ m', ws.foldlM (fun m w => a.write m w.1 w.2) m = .ok m' ∧
      a.Holds m' (ws.foldl (fun l w => l.set w.1 w.2) l) ∧ m'.live = m.live ∧ m'.trace = m.trace ∧
      (∀ b, (∀ i < l.length, b ≠ a.at i) → m'.obj b = m.obj b) := by
  induction ws with
  | nil => intro m l h _; exact ⟨m, rfl, h, rfl, rfl, fun b _ => rfl⟩
  | cons w ws ih =>
    intro m l h hw
    obtain ⟨m1, e1, h1, l1, t1, f1⟩ := C37_write m a l h w.1 (hw w (by simp)) w.2
    obtain ⟨m2, e2, h2, l2, t2, f2⟩ := ih m1 _ h1 fun v hv => by
      rw [List.length_set]
      exact hw v (by simp [hv])
    refine ⟨m2, ?_, h2, l2.trans l1, t2.trans t1, ?_⟩
    · rw [List.foldlM_cons, e1]
      exact e2
    · intro b hb
      rw [f2 b (by rw [List.length_set]; exact hb), f1 b (hb w.1 (hw w (by simp)))]

theorem foldl_set_length (ws : List (Nat × T)) (l : List T) :
    (ws.foldl (fun l w => l.set w.1 w.2) l).length = l.length := by
  induction ws generalizing l with
  | nil => rfl
  | cons w ws ih => rw [List.foldl_cons, ih, List.length_set]

/-- **C37 (lifetime).** Construction, any writes, destruction: reads see the writes, and afterwards the memory is what it was
before the array existed. -/
theorem C37_lifetime_partial (m : Mem T) (p n s : Nat) (init : T) (hs : 0 < s) (hn : n * s + 126 < 2 ^ 64)
    (hf : m.Fresh p (n * s + 126)) (ws : List (Nat × T)) (hw : ∀ w ∈ ws, w.1 < n) :
    ∃ m1 a m2 m3, AlignedArr.new m p n s init = .ok (m1, a) ∧
      ws.foldlM (fun m w => a.write m w.1 w.2) m1 = .ok m2 ∧
      (∀ i < n, a.read m2 i = .ok ((ws.foldl (fun l w => l.set w.1 w.2) (List.replicate n init)).getD i init)) ∧
      a.destroy m2 = .ok m3 ∧ m3.live = m.live ∧ m3.obj = m.obj ∧
      m3.trace.reverse = m.trace.reverse ++ (List.range n).reverse.map (fun i => MemEvent.dtor (a.at i)) ++
        [MemEvent.free p] := by
  obtain ⟨m1, a, e1, ha, l1, t1, o1, f1⟩ := AlignedArr.new_spec m p n s init hs hn hf
  obtain ⟨m1', a', e1', -, -, -, -, H1, -⟩ := C37_construct_partial m p n s init hs hn hf
  rw [e1] at e1'
  obtain ⟨rfl, rfl⟩ : m1 = m1' ∧ a = a' := by
    have := Except.ok.inj e1'
    exact ⟨congrArg Prod.fst this, congrArg Prod.snd this⟩
  have hlen : (List.replicate n init).length = n := by simp
  obtain ⟨m2, e2, H2, l2, t2, f2⟩ := C37_writes a ws m1 _ H1 (by rw [hlen]; exact hw)
  obtain ⟨m3, e3, t3, l3, o3, f3⟩ := C37_destroy m2 a _ H2
  rw [foldl_set_length, hlen] at t3 o3 f3
  have hp : a.unalignedMem = p := by rw [ha]
  refine ⟨m1, a, m2, m3, e1, e2, ?_, e3, ?_, ?_, ?_⟩
  · intro i hi
    have hi' : i < (ws.foldl (fun l w => l.set w.1 w.2) (List.replicate n init)).length := by
      rw [foldl_set_length, hlen]; exact hi
    rw [C37_read m2 a _ H2 i hi', List.getD, List.getElem?_eq_getElem hi']
    rfl
  · rw [l3, l2, l1, hp, List.eraseP_cons_of_pos (by simp)]
  · funext b
    by_cases hb : ∀ i < n, b ≠ a.at i
    · rw [f3 b hb, f2 b (by rw [hlen]; exact hb), f1 b hb]
    · push Not at hb
      obtain ⟨i, hi, rfl⟩ := hb
      rw [o3 i hi]
      have h1 := AlignedArr.at_lt (a := a) (by rw [ha]; exact hs) hi
      have h2 : a.data = aaAlign p := by rw [ha]
      have h3 : a.sizeofT = s := by rw [ha]
      have h4 := aaAlign_ge p
      have h5 := aaAlign_le p
      rw [h2, h3] at h1
      exact (hf.empty _ (by omega) (by omega)).symm
  · rw [t3, t2, t1, hp]

/-- An empty memory. -/
def Mem.nil : Mem T := ⟨[], fun _ => none, []⟩

/-- Case for C37: an array of 16 floats, `malloc` returning an address that is 16 bytes aligned only. -/
example : (Mem.nil : Mem ℚ).Fresh 0x1010 (16 * 4 + 126) := ⟨by decide, by simp [Mem.nil], fun _ _ _ => rfl⟩

/-- The array of that case, with values. -/
example : ∃ m a, AlignedArr.ofVector Mem.nil 0x1010 4 (0 : ℚ) [1, 2, 3] = .ok (m, a) ∧ a.data = 0x1040 ∧
    a.Holds m [1, 2, 3] := by
  obtain ⟨m, a, h, -, H, -⟩ := C37_ofVector_partial (Mem.nil : Mem ℚ) 0x1010 4 0 [1, 2, 3] (by decide) (by decide)
    ⟨by decide, by simp [Mem.nil], fun _ _ _ => rfl⟩
  refine ⟨m, a, h, ?_, H⟩
  have h' := congrArg (fun r => r.toOption.map fun q => q.2.data) h
  exact (Option.some.inj (h'.symm.trans (show _ = some 0x1040 by rfl)))

theorem forN_ok_prefix {σ : Type} {body : Nat → σ → Res σ} {n : Nat} {s s' : σ} (h : forN body n s = .ok s') :
    ∀ i < n, ∃ t t', forN body i s = .ok t ∧ body i t = .ok t' := by
  induction n generalizing s' with
  | zero => intro i hi; omega
  | succ n ih =>
    intro i hi
    rcases e : forN body n s with x | t
    · exfalso
      have : forN body (n + 1) s = forN body n s >>= body n := rfl
      rw [this, e] at h
      cases h
    · by_cases hin : i = n
      · subst hin
        refine ⟨t, s', e, ?_⟩
        have : forN body (i + 1) s = forN body i s >>= body i := rfl
        rw [this, e] at h
        exact h
      · exact ih e i (by omega)

theorem construct_live {n : Nat} {a : AlignedArr} {s : Nat} {v : T} {m m' : Mem T}
    (h : forN (fun i (m : Mem T) => m.construct (a.at i) s v) n m = .ok m') : m'.live = m.live := by
  induction n generalizing m' with
  | zero => cases h; rfl
  | succ n ih =>
    have e : forN (fun i (m : Mem T) => m.construct (a.at i) s v) (n + 1) m =
      forN (fun i (m : Mem T) => m.construct (a.at i) s v) n m >>= fun m => m.construct (a.at n) s v := rfl
    rw [e] at h
    rcases e1 : forN (fun i (m : Mem T) => m.construct (a.at i) s v) n m with x | t
    · rw [e1] at h; cases h
    · rw [e1] at h
      have h' : t.construct (a.at n) s v = .ok m' := h
      unfold Mem.construct at h'
      split at h'
      · have hl := ih e1
        cases h'
        exact hl
      · cases h'

/-- **C37 fails without the hypothesis on the size.** If `n * sizeof (T) + 126` does not fit into `size_t`, the block is too small
and the constructor writes outside of it. -/
theorem C37_false_overflow (p n s : Nat) (init : T) (hn : 0 < n) (ho : 2 ^ 64 ≤ n * s + 126) (hp : p ≠ 0)
    (r : Mem T × AlignedArr) : AlignedArr.new Mem.nil p n s init ≠ .ok r := by
  intro h
  unfold AlignedArr.new at h
  set a : AlignedArr := { unalignedMem := p, data := aaAlign p, nElements := n, sizeofT := s } with ha
  rcases e : forN (fun i (m : Mem T) => m.construct (a.at i) s init) n (Mem.nil.malloc p (aaRequest n s)) with x | t
  · simp only [e, err_bind] at h
    cases h
  · obtain ⟨t1, t2, h1, h2⟩ := forN_ok_prefix e (n - 1) (by omega)
    have hl := construct_live h1
    unfold Mem.construct at h2
    split at h2
    · next hb =>
      unfold Mem.inBlock at hb
      rw [hl] at hb
      unfold Mem.malloc at hb
      rw [if_neg hp] at hb
      simp only [Mem.nil, List.any_cons, List.any_nil, Bool.or_false, Bool.and_eq_true, decide_eq_true_eq] at hb
      have h3 := aaAlign_ge p
      have h4 : (n - 1) * s + s = n * s := by
        obtain ⟨k, rfl⟩ : ∃ k, n = k + 1 := ⟨n - 1, by omega⟩
        rw [Nat.add_sub_cancel]
        ring
      have h5 : a.at (n - 1) = aaAlign p + (n - 1) * s := rfl
      unfold aaRequest at hb
      have h6 := Nat.mod_add_div (n * s + 2 * (64 - 1)) (2 ^ 64)
      have h7 : 1 ≤ (n * s + 2 * (64 - 1)) / 2 ^ 64 := (Nat.one_le_div_iff (by norm_num)).mpr (by omega)
      omega
    · cases h2

/-- Case: `AlignedArray<float> (2^62)` requests 126 bytes. -/
example : 2 ^ 64 ≤ 2 ^ 62 * 4 + 126 ∧ aaRequest (2 ^ 62) 4 = 126 := by decide

/-- **C37 fails when `malloc` does.** The result of `malloc` is not tested. -/
theorem C37_false_malloc_fails (n s : Nat) (init : T) (hn : 0 < n) (r : Mem T × AlignedArr) :
    AlignedArr.new Mem.nil 0 n s init ≠ .ok r := by
  intro h
  unfold AlignedArr.new at h
  set a : AlignedArr := { unalignedMem := 0, data := aaAlign 0, nElements := n, sizeofT := s } with ha
  rcases e : forN (fun i (m : Mem T) => m.construct (a.at i) s init) n (Mem.nil.malloc 0 (aaRequest n s)) with x | t
  · simp only [e, err_bind] at h
    cases h
  · obtain ⟨t1, t2, h1, h2⟩ := forN_ok_prefix e 0 hn
    have h1' : t1 = Mem.nil := by
      have := Except.ok.inj h1
      rw [← this]
      rfl
    rw [h1'] at h2
    cases h2

/-- **C38 is false.** For every array, of any length, destroying a copy after the original is undefined: the elements
would be destroyed, or the block freed, a second time. -/
theorem C38_false_copy (m : Mem T) (a : AlignedArr) (l : List T) (h : a.Holds m l)
    (hu : (m.live.filter fun b => b.1 == a.unalignedMem).length = 1) :
    ∃ m', a.destroy m = .ok m' ∧ a.copy.destroy m' = .error .badFree := by
  obtain ⟨m', e, -, hl, ho, -⟩ := C37_destroy m a l h
  refine ⟨m', e, ?_⟩
  show a.destroy m' = _
  unfold AlignedArr.destroy
  rcases hn : a.nElements with - | n
  · show m'.free a.unalignedMem = _
    unfold Mem.free
    rw [if_neg h.owned, if_neg]
    rw [hl]
    intro hany
    obtain ⟨b, hb, hb'⟩ := List.any_eq_true.mp hany
    have h1 : (m.live.filter fun b => b.1 == a.unalignedMem).length =
        ((m.live.eraseP fun b => b.1 == a.unalignedMem).filter fun b => b.1 == a.unalignedMem).length + 1 := by
      have hex : ∃ b ∈ m.live, (b.1 == a.unalignedMem) = true :=
        ⟨b, List.mem_of_mem_eraseP hb, hb'⟩
      clear hu hl ho e hany hb hb' hn
      generalize m.live = L at *
      induction L with
      | nil => obtain ⟨b, hb, -⟩ := hex; cases hb
      | cons x L ih =>
        by_cases hx : (x.1 == a.unalignedMem) = true
        · rw [List.eraseP_cons_of_pos (p := fun b : Nat × Nat => b.1 == a.unalignedMem) hx,
            List.filter_cons_of_pos (p := fun b : Nat × Nat => b.1 == a.unalignedMem) hx]
          rfl
        · rw [List.eraseP_cons_of_neg (p := fun b : Nat × Nat => b.1 == a.unalignedMem) hx,
            List.filter_cons_of_neg (p := fun b : Nat × Nat => b.1 == a.unalignedMem) hx,
            List.filter_cons_of_neg (p := fun b : Nat × Nat => b.1 == a.unalignedMem) hx]
          refine ih ?_
          obtain ⟨b, hb, hb'⟩ := hex
          rcases List.mem_cons.mp hb with rfl | hb
          · exact absurd hb' hx
          · exact ⟨b, hb, hb'⟩
    have h2 : 0 < ((m.live.eraseP fun b => b.1 == a.unalignedMem).filter fun b => b.1 == a.unalignedMem).length :=
      List.length_pos_of_mem (List.mem_filter.mpr ⟨hb, hb'⟩)
    omega
  · rw [destroy_loop_dead a n m' (ho n (by rw [← h.size, hn]; omega))]
    rfl

/-- Case for C38: the copy of an array of three elements. -/
example : ∃ m a m', AlignedArr.new Mem.nil 0x1010 3 4 (0 : ℚ) = .ok (m, a) ∧ a.destroy m = .ok m' ∧
    a.copy.destroy m' = .error .badFree := by
  obtain ⟨m, a, h, -, -, -, -, H, -, -, hl⟩ := C37_construct_partial (Mem.nil : Mem ℚ) 0x1010 3 4 0 (by decide) (by decide)
    ⟨by decide, by simp [Mem.nil], fun _ _ _ => rfl⟩
  have ha : a.unalignedMem = 0x1010 := by
    have h' := congrArg (fun r => r.toOption.map fun q => q.2.unalignedMem) h
    exact (Option.some.inj (h'.symm.trans (show _ = some 0x1010 by rfl)))
  obtain ⟨m', e, e'⟩ := C38_false_copy m a _ H (by rw [hl, ha]; rfl)
  exact ⟨m, a, m', h, e, e'⟩

end Panda
