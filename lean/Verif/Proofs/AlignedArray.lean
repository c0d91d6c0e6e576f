import Verif.Model.AlignedArray
import Verif.Proofs.Hoare
import Mathlib.Tactic.Linarith
import Mathlib.Tactic.Ring

/-!
# Lemmas about `AlignedArray`
-/

namespace Panda

variable {T : Type}

theorem aaAlign_mod (p : Nat) : aaAlign p % 64 = 0 := by
  unfold aaAlign
  split <;> omega

theorem aaAlign_ge (p : Nat) : p ≤ aaAlign p := by
  unfold aaAlign
  split <;> omega

theorem aaAlign_le (p : Nat) : aaAlign p ≤ p + 63 := by
  unfold aaAlign
  split <;> omega

theorem slot_le {i n s : Nat} (h : i < n) : i * s + s ≤ n * s := by
  calc i * s + s = (i + 1) * s := by ring
    _ ≤ n * s := Nat.mul_le_mul_right s h

theorem AlignedArr.at_inj {a : AlignedArr} (hs : 0 < a.sizeofT) {i j : Nat} (h : a.at i = a.at j) : i = j := by
  unfold AlignedArr.at at h
  exact Nat.eq_of_mul_eq_mul_right hs (by omega)

theorem AlignedArr.at_lt {a : AlignedArr} {i n : Nat} (hs : 0 < a.sizeofT) (h : i < n) :
    a.data ≤ a.at i ∧ a.at i < a.data + n * a.sizeofT := by
  have := slot_le (s := a.sizeofT) h
  unfold AlignedArr.at
  omega

/-- The construction loop. -/
theorem construct_loop (m : Mem T) (a : AlignedArr) (s : Nat) (v : T) (n : Nat)
    (hin : ∀ i < n, m.inBlock (a.at i) s = true) :
    ∃ m', forN (fun i (m : Mem T) => m.construct (a.at i) s v) n m = .ok m' ∧ m'.live = m.live ∧ m'.trace = m.trace ∧
      (∀ i < n, m'.obj (a.at i) = some v) ∧ (∀ b, (∀ i < n, b ≠ a.at i) → m'.obj b = m.obj b) := by
  induction n with
  | zero => exact ⟨m, rfl, rfl, rfl, fun i hi => absurd hi (by omega), fun b _ => rfl⟩
  | succ n ih =>
    obtain ⟨m1, h1, hl, ht, ho, hf⟩ := ih fun i hi => hin i (by omega)
    have hb : m1.inBlock (a.at n) s = true := by
      have := hin n (by omega)
      unfold Mem.inBlock at this ⊢
      rwa [hl]
    refine ⟨{ m1 with obj := fun b => if b = a.at n then some v else m1.obj b }, ?_, hl, ht, ?_, ?_⟩
    · show forN _ n m >>= _ = _
      rw [h1]
      show m1.construct (a.at n) s v = _
      unfold Mem.construct
      rw [if_pos hb]
      rfl
    · intro i hi
      show (if a.at i = a.at n then some v else m1.obj (a.at i)) = some v
      split
      · rfl
      · next h =>
        refine ho i ?_
        by_contra h'
        exact h (by rw [show i = n by omega])
    · intro b hb'
      show (if b = a.at n then some v else m1.obj b) = m.obj b
      rw [if_neg (hb' n (by omega))]
      exact hf b fun i hi => hb' i (by omega)

/-- The `std::copy` loop of the constructor from a vector. -/
theorem assign_loop (m : Mem T) (a : AlignedArr) (hs : 0 < a.sizeofT) (f : Nat → T) (n : Nat)
    (ho : ∀ i < n, (m.obj (a.at i)).isSome = true) :
    ∃ m', forN (fun i (m : Mem T) => m.assign (a.at i) (f i)) n m = .ok m' ∧ m'.live = m.live ∧ m'.trace = m.trace ∧
      (∀ i < n, m'.obj (a.at i) = some (f i)) ∧ (∀ b, (∀ i < n, b ≠ a.at i) → m'.obj b = m.obj b) := by
  induction n with
  | zero => exact ⟨m, rfl, rfl, rfl, fun i hi => absurd hi (by omega), fun b _ => rfl⟩
  | succ n ih =>
    obtain ⟨m1, h1, hl, ht, ho1, hf⟩ := ih fun i hi => ho i (by omega)
    have hn : m1.obj (a.at n) = m.obj (a.at n) := hf _ fun i hi h => by
      have := AlignedArr.at_inj hs h
      omega
    obtain ⟨w, hw⟩ := Option.isSome_iff_exists.mp (ho n (by omega))
    refine ⟨{ m1 with obj := fun b => if b = a.at n then some (f n) else m1.obj b }, ?_, hl, ht, ?_, ?_⟩
    · show forN _ n m >>= _ = _
      rw [h1]
      show m1.assign (a.at n) (f n) = _
      unfold Mem.assign
      rw [hn, hw]
      rfl
    · intro i hi
      show (if a.at i = a.at n then some (f n) else m1.obj (a.at i)) = some (f i)
      split
      · next h => rw [AlignedArr.at_inj hs h]
      · next h =>
        refine ho1 i ?_
        by_contra h'
        exact h (by rw [show i = n by omega])
    · intro b hb'
      show (if b = a.at n then some (f n) else m1.obj b) = m.obj b
      rw [if_neg (hb' n (by omega))]
      exact hf b fun i hi => hb' i (by omega)

/-- The destruction loop, started with `n` elements left. -/
theorem destroy_loop (a : AlignedArr) (hs : 0 < a.sizeofT) (n : Nat) :
    ∀ (m : Mem T), (∀ i < n, (m.obj (a.at i)).isSome = true) →
    ∃ m', whileF (fun s : Mem T × Nat => s.2 ≠ 0) (fun s => do
        let m ← s.1.destroy (a.at (s.2 - 1))
        pure (m, s.2 - 1)) n (m, n) = .ok (m', 0) ∧ m'.live = m.live ∧
      m'.trace = (List.range n).map (fun i => MemEvent.dtor (a.at i)) ++ m.trace ∧
      (∀ i < n, m'.obj (a.at i) = none) ∧ (∀ b, (∀ i < n, b ≠ a.at i) → m'.obj b = m.obj b) := by
  induction n with
  | zero => intro m _; exact ⟨m, rfl, rfl, rfl, fun i hi => absurd hi (by omega), fun b _ => rfl⟩
  | succ n ih =>
    intro m ho
    obtain ⟨w, hw⟩ := Option.isSome_iff_exists.mp (ho n (by omega))
    let m1 : Mem T := { m with
      obj := fun b => if b = a.at n then none else m.obj b, trace := .dtor (a.at n) :: m.trace }
    have hd : m.destroy (a.at n) = .ok m1 := by
      unfold Mem.destroy
      rw [hw]
      rfl
    have ho1 : ∀ i < n, m1.obj (a.at i) = m.obj (a.at i) := by
      intro i hi
      show (if a.at i = a.at n then none else m.obj (a.at i)) = _
      rw [if_neg]
      intro h
      have := AlignedArr.at_inj hs h
      omega
    obtain ⟨m', h1, hl, ht, hn, hf⟩ := ih m1 fun i hi => by rw [ho1 i hi]; exact ho i (by omega)
    refine ⟨m', ?_, hl, ?_, ?_, ?_⟩
    · unfold whileF
      rw [if_pos (by simp)]
      show (m.destroy (a.at (n + 1 - 1)) >>= fun m => pure (m, n + 1 - 1)) >>= _ = _
      rw [show n + 1 - 1 = n from rfl, hd]
      exact h1
    · rw [ht, List.range_succ, List.map_append, List.append_assoc]
      rfl
    · intro i hi
      by_cases h : i = n
      · subst h
        rw [hf _ fun j hj h => by have := AlignedArr.at_inj hs h; omega]
        exact if_pos rfl
      · exact hn i (by omega)
    · intro b hb
      rw [hf b fun i hi => hb i (by omega)]
      exact if_neg (hb n (by omega))

/-- Destroying elements one of which is not alive: if the last one is dead the loop is undefined. -/
theorem destroy_loop_dead (a : AlignedArr) (n : Nat) (m : Mem T) (h : m.obj (a.at n) = none) :
    whileF (fun s : Mem T × Nat => s.2 ≠ 0) (fun s => do
        let m ← s.1.destroy (a.at (s.2 - 1))
        pure (m, s.2 - 1)) (n + 1) (m, n + 1) = .error .badFree := by
  unfold whileF
  rw [if_pos (by simp)]
  show (m.destroy (a.at (n + 1 - 1)) >>= fun m => pure (m, n + 1 - 1)) >>= _ = _
  rw [show n + 1 - 1 = n from rfl]
  unfold Mem.destroy
  rw [h]
  rfl

end Panda
