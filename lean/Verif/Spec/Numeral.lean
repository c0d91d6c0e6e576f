import Verif.Model.TestArgs
import Mathlib.Data.Nat.Digits.Defs

/-!
# What `atoi` reads

The C standard (7.22.1.4): white space, an optional sign, digits, and a rest that does not matter.
-/

namespace Panda.Tool

/-- White space, a sign, and the values of the digits. -/
structure Numeral where
  space : Str
  sign : Str
  vals : List Nat
  rest : Str

/-- The characters, in this order. -/
def Numeral.chars (n : Numeral) : Str := n.space ++ n.sign ++ n.vals.map (fun d => Char.ofNat (48 + d)) ++ n.rest

/-- Nothing is read too early: white space before the sign, digits are less than ten, the rest begins with no digit; and
without sign and digits not with white space or a sign either. -/
structure Numeral.Ok (n : Numeral) : Prop where
  space : ∀ c ∈ n.space, c.toNat = 32 ∨ 9 ≤ c.toNat ∧ c.toNat ≤ 13
  sign : n.sign = [] ∨ n.sign = ['+'] ∨ n.sign = ['-']
  vals : ∀ d ∈ n.vals, d < 10
  rest : ∀ c ∈ n.rest.head?, ¬ (48 ≤ c.toNat ∧ c.toNat ≤ 57)
  none : n.sign = [] → n.vals = [] → ∀ c ∈ n.rest.head?, c.toNat ≠ 32 ∧ ¬ (9 ≤ c.toNat ∧ c.toNat ≤ 13) ∧ c ≠ '+' ∧ c ≠ '-'

/-- The number it stands for, in the decimal system. -/
def Numeral.value (n : Numeral) : Int := (if n.sign = ['-'] then -1 else 1) * (Nat.ofDigits 10 n.vals.reverse : Nat)

end Panda.Tool
