import Verif.Model.Float

/-!
# Contraction of multiplications and additions

Compilers may compute `a * b + c` with one rounding instead of two (gcc does so by default if the processor has the instruction,
e.g. on AArch64). Which expressions are contracted depends on the compiler and on the place in the program.

The sample type `Term S` keeps the expression by which a sample was computed. `Term.eval` computes its value for a given choice of
contractions.
-/

namespace Panda

/-- Expressions of the operations on samples in include/pandaresampler/pandaresampler.cc:182-233, 513-528 and in the hiir stages. The
number of a leaf tells samples with equal values apart. -/
inductive Term (S : Format) where
  | leaf (id : ℕ) (v : Fl S)
  | add (a b : Term S)
  | sub (a b : Term S)
  | mul (a b : Term S)

/-- What the compiler does with an addition or subtraction. (for the expressions of pandaresampler.cc:182-233, 513-528) -/
inductive Fuse where
  /-- two roundings -/
  | none
  /-- the left operand, if it is a product, is not rounded -/
  | left
  /-- the right operand, if it is a product, is not rounded -/
  | right

namespace Term

variable {S : Format}

instance : Zero (Term S) := ⟨leaf 0 0⟩
instance : One (Term S) := ⟨leaf 0 1⟩
instance : Add (Term S) := ⟨add⟩
instance : Sub (Term S) := ⟨sub⟩
instance : Mul (Term S) := ⟨mul⟩
instance : Sample (Term S) := ⟨leaf 0 Sample.half, fun q => leaf 0 (Sample.ofDouble q)⟩

/-- The exact product. (products as in pandaresampler.cc:182-233) -/
def exactMul (a b : Fl S) : Fl S :=
  match a, b with
  | some x, some y => some (x * y)
  | _, _ => none

/-- Operands of an addition or subtraction; `p` and `q` are pairs of the rounded and the unrounded value. (pandaresampler.cc:182-233, 513-528) -/
def Fuse.pick (f : Fuse) (op : Fl S → Fl S → Fl S) (p q : Fl S × Fl S) : Fl S :=
  match f with
  | .none => op p.1 q.1
  | .left => op p.2 q.1
  | .right => op p.1 q.2

/-- The value of an expression, rounded, and unrounded if it is a product. The choice `ch` may depend on the whole expression, and so on
the place in the program. (pandaresampler.cc:182-233, 513-528) -/
def both (ch : Term S → Fuse) : Term S → Fl S × Fl S
  | leaf _ v => (v, v)
  | mul a b => ((both ch a).1 * (both ch b).1, exactMul (both ch a).1 (both ch b).1)
  | add a b => let v := Fuse.pick (ch (add a b)) (· + ·) (both ch a) (both ch b); (v, v)
  | sub a b => let v := Fuse.pick (ch (sub a b)) (· - ·) (both ch a) (both ch b); (v, v)

/-- The value of an expression. (pandaresampler.cc:182-233, 513-528) -/
def eval (ch : Term S → Fuse) (t : Term S) : Fl S := (both ch t).1

end Term

end Panda
