import Verif.Spec.Numeral
import Verif.Proofs.TestArgs
import Mathlib.Tactic.Ring
import Mathlib.Tactic.IntervalCases

/-!
# The numbers on the command line of the test program (C91, `atoi`)
-/

namespace Panda.Tool

private theorem isSpace_iff (c : Char) : isSpace c = true ↔ c.toNat = 32 ∨ 9 ≤ c.toNat ∧ c.toNat ≤ 13 := by
  have e : ∀ d : Char, c = d ↔ c.toNat = d.toNat := fun d => ⟨fun h => h ▸ rfl, fun h => Char.toNat_inj.1 h⟩
  simp only [isSpace, List.mem_cons, List.not_mem_nil, or_false, decide_eq_true_eq, e]
  rw [show ' '.toNat = 32 from rfl, show '\t'.toNat = 9 from rfl, show '\n'.toNat = 10 from rfl, show '\x0b'.toNat = 11 from rfl,
    show '\x0c'.toNat = 12 from rfl, show '\r'.toNat = 13 from rfl]
  omega

private theorem isDigit_iff (c : Char) : c.isDigit = true ↔ 48 ≤ c.toNat ∧ c.toNat ≤ 57 := by
  simp only [Char.isDigit, Bool.and_eq_true, decide_eq_true_eq, ge_iff_le, Char.toNat, UInt32.le_iff_toNat_le]
  rfl

private theorem digit_toNat {d : Nat} (h : d < 10) : (Char.ofNat (48 + d)).toNat = 48 + d := by
  interval_cases d <;> rfl

private theorem digits_rest (m : Nat) {r : Str} (h : ∀ c ∈ r.head?, ¬ (48 ≤ c.toNat ∧ c.toNat ≤ 57)) : digits m r = m := by
  cases r with
  | nil => rfl
  | cons c r =>
    rw [digits, if_neg]
    rw [isDigit_iff]
    exact h c rfl

private theorem digits_vals (ds : List Nat) (hd : ∀ d ∈ ds, d < 10) {r : Str} (h : ∀ c ∈ r.head?, ¬ (48 ≤ c.toNat ∧ c.toNat ≤ 57))
    (m : Nat) : digits m (ds.map (fun d => Char.ofNat (48 + d)) ++ r) = m * 10 ^ ds.length + Nat.ofDigits 10 ds.reverse := by
  induction ds generalizing m with
  | nil => simpa using digits_rest m h
  | cons d ds ih =>
    have h10 := hd d (by simp)
    have e := digit_toNat h10
    rw [List.map_cons, List.cons_append, digits, if_pos (by rw [isDigit_iff, e]; omega), ih (fun d h => hd d (by simp [h])), e,
      List.reverse_cons, Nat.ofDigits_append, Nat.ofDigits_singleton, List.length_reverse, List.length_cons,
      show '0'.toNat = 48 from rfl, Nat.add_sub_cancel_left, pow_succ]
    ring

private theorem dropWhile_skip (p : Char → Bool) (a b : Str) (h : ∀ c ∈ a, p c = true) : (a ++ b).dropWhile p = b.dropWhile p := by
  induction a with
  | nil => rfl
  | cons c a ih => rw [List.cons_append, List.dropWhile_cons, if_pos (h c (by simp)), ih fun c hc => h c (by simp [hc])]

private theorem digit_not {d : Nat} (h : d < 10) : isSpace (Char.ofNat (48 + d)) = false ∧ Char.ofNat (48 + d) ≠ '-' ∧ Char.ofNat (48 + d) ≠ '+' := by
  interval_cases d <;> decide

private theorem intValue_plain {s t : Str} (h : s.dropWhile isSpace = t) (h1 : ∀ c ∈ t.head?, c ≠ '-' ∧ c ≠ '+') : intValue s = digits 0 t := by
  unfold intValue
  rw [h]
  cases t with
  | nil => rfl
  | cons c t =>
    have := h1 c rfl
    split
    · rename_i e
      injection e with e
      exact absurd e this.1
    · rename_i e
      injection e with e
      exact absurd e this.2
    · rfl

/-- `intValue` is the value of the numeral. -/
theorem intValue_numeral (n : Numeral) (h : n.Ok) : intValue n.chars = n.value := by
  have e : n.chars.dropWhile isSpace = (n.sign ++ n.vals.map (fun d => Char.ofNat (48 + d)) ++ n.rest).dropWhile isSpace := by
    rw [Numeral.chars, List.append_assoc, List.append_assoc, dropWhile_skip _ _ _ fun c hc => (isSpace_iff c).2 (h.space c hc),
      List.append_assoc]
  have hv := digits_vals n.vals h.vals h.rest 0
  rw [zero_mul, zero_add] at hv
  unfold Numeral.value
  rcases h.sign with hs | hs | hs
  · rw [if_neg (by rw [hs]; decide), one_mul, ← hv]
    refine intValue_plain (e.trans ?_) ?_
    · rw [hs, List.nil_append]
      cases hn : n.vals with
      | nil =>
        cases hr : n.rest with
        | nil => rfl
        | cons c r =>
          have := h.none hs hn c (by rw [hr]; rfl)
          rw [List.map_nil, List.nil_append, List.dropWhile_cons, if_neg]
          rw [isSpace_iff]
          tauto
      | cons d ds =>
        have := digit_not (h.vals d (by rw [hn]; simp))
        rw [List.map_cons, List.cons_append, List.dropWhile_cons, this.1]
        rfl
    · cases hn : n.vals with
      | nil =>
        intro c hc
        have := h.none hs hn c hc
        exact ⟨this.2.2.2, this.2.2.1⟩
      | cons d ds =>
        intro c hc
        simp only [List.map_cons, List.cons_append, List.head?_cons, Option.mem_def, Option.some.injEq] at hc
        subst hc
        exact (digit_not (h.vals d (by rw [hn]; simp))).2
  · rw [if_neg (by rw [hs]; decide), one_mul, ← hv]
    unfold intValue
    rw [e, hs]
    rfl
  · rw [if_pos hs, neg_one_mul, ← hv]
    unfold intValue
    rw [e, hs]
    rfl

/-- **C91** (numbers) `atoi`, as used for block size and precision: white space, a sign, decimal digits; what follows is ignored. It is
undefined exactly for numbers that are not values of `int`. -/
theorem C91_atoi (n : Numeral) (h : n.Ok) :
    atoi n.chars = if -2 ^ 31 ≤ n.value ∧ n.value ≤ 2 ^ 31 - 1 then .ok n.value else .error (.ub .overflow) := by
  unfold atoi
  rw [intValue_numeral n h]
  by_cases hr : -2 ^ 31 ≤ n.value ∧ n.value < 2 ^ 31
  · rw [if_pos hr, if_pos ⟨hr.1, by omega⟩]
    rfl
  · rw [if_neg hr, if_neg fun hc => hr ⟨hc.1, by omega⟩]

private theorem digits_split (s : Str) : ∃ (ds : List Nat) (r : Str), s = ds.map (fun d => Char.ofNat (48 + d)) ++ r ∧ (∀ d ∈ ds, d < 10) ∧
    ∀ c ∈ r.head?, ¬ (48 ≤ c.toNat ∧ c.toNat ≤ 57) := by
  induction s with
  | nil => exact ⟨[], [], rfl, by simp, by simp⟩
  | cons c s ih =>
    by_cases hc : 48 ≤ c.toNat ∧ c.toNat ≤ 57
    · obtain ⟨ds, r, rfl, hd, hr⟩ := ih
      refine ⟨(c.toNat - 48) :: ds, r, ?_, ?_, hr⟩
      · rw [List.map_cons, List.cons_append, show 48 + (c.toNat - 48) = c.toNat by omega, Char.ofNat_toNat]
      · intro d h
        rcases List.mem_cons.1 h with rfl | h
        · omega
        · exact hd d h
    · exact ⟨[], c :: s, rfl, by simp, by simpa using hc⟩

/-- **C91** (numbers) Every string is such a numeral: `C91_atoi` covers all arguments. -/
theorem C91_numeral (s : Str) : ∃ n : Numeral, n.Ok ∧ n.chars = s := by
  have hsp : ∀ c ∈ s.takeWhile isSpace, c.toNat = 32 ∨ 9 ≤ c.toNat ∧ c.toNat ≤ 13 :=
    fun c hc => (isSpace_iff c).1 (List.all_eq_true.1 List.all_takeWhile c hc)
  have hsd := (List.takeWhile_append_dropWhile (p := isSpace) (l := s))
  have hd : ∀ c ∈ (s.dropWhile isSpace).head?, ¬ isSpace c = true := by
    intro c hc
    have := List.head?_dropWhile_not isSpace s
    rw [Option.mem_def.1 hc] at this
    simpa using this
  generalize s.dropWhile isSpace = t at hsd hd
  have sg : ∀ (t' : Str) (sign : Str), (sign = ['+'] ∨ sign = ['-']) → t = sign ++ t' → ∃ n : Numeral, n.Ok ∧ n.chars = s := by
    intro t' sign hs ht
    obtain ⟨ds, r, rfl, h1, h2⟩ := digits_split t'
    refine ⟨⟨s.takeWhile isSpace, sign, ds, r⟩, ⟨hsp, Or.inr hs, h1, h2, ?_⟩, ?_⟩
    · rintro (rfl : sign = [])
      simp at hs
    · simp only [Numeral.chars]
      rw [List.append_assoc, List.append_assoc, ← ht, hsd]
  by_cases hp : t.head? = some '+'
  · obtain ⟨t', rfl⟩ : ∃ t', t = '+' :: t' := by
      cases t with
      | nil => cases hp
      | cons c t => exact ⟨t, by simpa using hp⟩
    exact sg t' ['+'] (Or.inl rfl) rfl
  by_cases hm : t.head? = some '-'
  · obtain ⟨t', rfl⟩ : ∃ t', t = '-' :: t' := by
      cases t with
      | nil => cases hm
      | cons c t => exact ⟨t, by simpa using hm⟩
    exact sg t' ['-'] (Or.inr rfl) rfl
  obtain ⟨ds, r, rfl, h1, h2⟩ := digits_split t
  refine ⟨⟨s.takeWhile isSpace, [], ds, r⟩, ⟨hsp, Or.inl rfl, h1, h2, ?_⟩, ?_⟩
  · rintro - (rfl : ds = []) c hc
    have := hd c hc
    rw [isSpace_iff] at this
    refine ⟨fun e => this (.inl e), fun e => this (.inr e), ?_, ?_⟩
    · rintro rfl
      exact hp hc
    · rintro rfl
      exact hm hc
  · simp only [Numeral.chars]
    rw [List.append_nil, List.append_assoc, hsd]

/-- A numeral with all four parts. -/
example : ∃ n : Numeral, n.Ok ∧ n.chars = " \t-0127 x9".toList ∧ n.value = -127 ∧ atoi " \t-0127 x9".toList = .ok (-127) := by
  have h : (⟨[' ', '\t'], ['-'], [0, 1, 2, 7], " x9".toList⟩ : Numeral).Ok := ⟨by decide, by decide, by decide, by decide, by decide⟩
  refine ⟨_, h, by decide, by decide, ?_⟩
  exact (C91_atoi _ h).trans (by decide)

end Panda.Tool
