/-!
# What an IIR (polyphase all-pass) stage is supposed to compute

Stated about plain sequences, without reference to the model of the code.
-/

namespace Panda

variable {F : Type}

/-- Value of a sequence one step before `n`; zero before the start. -/
def prev [Zero F] (s : Nat → F) : Nat → F
  | 0 => 0
  | n + 1 => s n

/-- First order all-pass section: `y[n] = (x[n] - y[n-1]) * a + x[n-1]`, zero before the start. -/
def allpass [Zero F] [Add F] [Sub F] [Mul F] (a : F) (x : Nat → F) : Nat → F
  | 0 => (x 0 - 0) * a + 0
  | n + 1 => (x (n + 1) - allpass a x n) * a + x n

/-- Signal after `j` sections of polyphase branch `b` (`b = 0, 1`) whose sections use the
coefficients `c b, c (b+2), c (b+4), ...`. -/
def branch [Zero F] [Add F] [Sub F] [Mul F] (c : Nat → F) (b : Nat) (x : Nat → F) : Nat → Nat → F
  | 0 => x
  | j + 1 => allpass (c (2 * j + b)) (branch c b x j)

/-- Number of sections of branch `b` in a filter with `nc` coefficients. -/
def branchLen (nc b : Nat) : Nat := (nc + 1 - b) / 2

/-- Output of branch `b` of a filter with coefficients `c 0, ..., c (nc-1)`. -/
def branchOut [Zero F] [Add F] [Sub F] [Mul F] (nc : Nat) (c : Nat → F) (b : Nat) (x : Nat → F) : Nat → F :=
  branch c b x (branchLen nc b)

end Panda
