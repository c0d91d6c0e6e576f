import Verif.Model.Basic

/-!
# Reasoning rules for `Res`

`Sat r P`: running `r` causes no undefined behaviour and its result satisfies `P`.
-/

namespace Panda

/-- `r` is free of undefined behaviour and its value satisfies `P`. -/
def Sat {α : Type} (r : Res α) (P : α → Prop) : Prop := ∃ a, r = .ok a ∧ P a

@[simp] theorem ok_bind {α β : Type} (a : α) (f : α → Res β) : ((Except.ok a : Res α) >>= f) = f a := rfl
@[simp] theorem err_bind {α β : Type} (e : UB) (f : α → Res β) :
    ((Except.error e : Res α) >>= f) = .error e := rfl
@[simp] theorem pure_eq_ok {α : Type} (a : α) : (pure a : Res α) = .ok a := rfl

theorem sat_ok {α : Type} {a : α} {P : α → Prop} (h : P a) : Sat (.ok a) P := ⟨a, rfl, h⟩

theorem sat_pure {α : Type} {a : α} {P : α → Prop} (h : P a) : Sat (pure a) P := ⟨a, rfl, h⟩

theorem sat_bind {α β : Type} {r : Res α} {f : α → Res β} {P : α → Prop} {Q : β → Prop}
    (h : Sat r P) (hf : ∀ a, P a → Sat (f a) Q) : Sat (r >>= f) Q := by
  obtain ⟨a, rfl, ha⟩ := h
  exact hf a ha

theorem sat_mono {α : Type} {r : Res α} {P Q : α → Prop} (h : Sat r P) (hpq : ∀ a, P a → Q a) : Sat r Q := by
  obtain ⟨a, rfl, ha⟩ := h
  exact ⟨a, rfl, hpq a ha⟩

theorem sat_forN {σ : Type} {body : Nat → σ → Res σ} (I : Nat → σ → Prop) {n : Nat} {s : σ}
    (h0 : I 0 s) (hstep : ∀ i < n, ∀ s, I i s → Sat (body i s) (I (i + 1))) :
    Sat (forN body n s) (I n) := by
  induction n with
  | zero => exact sat_pure h0
  | succ n ih =>
    exact sat_bind (ih fun i hi => hstep i (by omega)) (hstep n (by omega))

/-- While rule: `μ` bounds the number of remaining iterations. -/
theorem sat_whileF {σ : Type} {cond : σ → Bool} {body : σ → Res σ} (I : σ → Prop) (μ : σ → Nat)
    {fuel : Nat} {s : σ} (h0 : I s) (hf : μ s ≤ fuel)
    (hstep : ∀ s, I s → cond s = true → Sat (body s) (fun s' => I s' ∧ μ s' < μ s)) :
    Sat (whileF cond body fuel s) (fun s' => I s' ∧ cond s' = false) := by
  induction fuel generalizing s with
  | zero =>
    unfold whileF
    by_cases hc : cond s = true
    · obtain ⟨s', _, _, hμ⟩ := hstep s h0 hc
      omega
    · rw [if_neg hc]
      exact sat_pure ⟨h0, by simpa using hc⟩
  | succ fuel ih =>
    unfold whileF
    by_cases hc : cond s = true
    · rw [if_pos hc]
      refine sat_bind (hstep s h0 hc) ?_
      rintro s' ⟨hI, hμ⟩
      exact ih hI (by omega)
    · rw [if_neg hc]
      exact sat_pure ⟨h0, by simpa using hc⟩

namespace Buf
variable {F : Type}

@[simp] theorem upd_len (b : Buf F) (i : Nat) (v : F) : (b.upd i v).len = b.len := rfl
@[simp] theorem upd_addr (b : Buf F) (i : Nat) (v : F) : (b.upd i v).addr = b.addr := rfl
theorem upd_get (b : Buf F) (i : Nat) (v : F) (j : Nat) :
    (b.upd i v).get j = if j = i then v else b.get j := rfl
@[simp] theorem upd_get_same (b : Buf F) (i : Nat) (v : F) : (b.upd i v).get i = v := by simp [upd_get]
theorem upd_get_ne (b : Buf F) (i : Nat) (v : F) {j : Nat} (h : j ≠ i) : (b.upd i v).get j = b.get j := by
  simp [upd_get, h]

theorem rd_eq {b : Buf F} {i : Nat} (h : i < b.len) : b.rd i = .ok (b.get i) := by simp [rd, h]
theorem wr_eq {b : Buf F} {i : Nat} (v : F) (h : i < b.len) : b.wr i v = .ok (b.upd i v) := by simp [wr, h]

theorem ld4a_eq {b : Buf F} {off : Nat} (ha : (b.addr + 4 * off) % 16 = 0) (h : off + 4 ≤ b.len) :
    b.ld4a off = .ok ⟨b.get off, b.get (off + 1), b.get (off + 2), b.get (off + 3)⟩ := by
  simp [ld4a, ha, rd_eq (show off < b.len by omega), rd_eq (show off + 1 < b.len by omega),
    rd_eq (show off + 2 < b.len by omega), rd_eq (show off + 3 < b.len by omega)]

theorem ld4u_eq {b : Buf F} {off : Nat} (h : off + 4 ≤ b.len) :
    b.ld4u off = .ok ⟨b.get off, b.get (off + 1), b.get (off + 2), b.get (off + 3)⟩ := by
  simp [ld4u, rd_eq (show off < b.len by omega), rd_eq (show off + 1 < b.len by omega),
    rd_eq (show off + 2 < b.len by omega), rd_eq (show off + 3 < b.len by omega)]

end Buf

theorem u32_of_lt {x : Nat} (h : x < 2 ^ 32) : u32 x = x := Nat.mod_eq_of_lt h

end Panda
