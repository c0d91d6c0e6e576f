import Verif.Spec.Config

/-!
# Programs of the same shape
-/

namespace Panda

/-- Two programs that make the same calls with buffers of the same size at the same places; the samples (and even the
sample types) may differ. -/
def SameShape {A B : Type} : List (Op A) → List (Op B) → Prop
  | .process c :: l, .process d :: m =>
    (d.n = c.n ∧ d.input.addr = c.input.addr ∧ d.input.len = c.input.len ∧ d.output.addr = c.output.addr ∧
      d.output.len = c.output.len ∧ d.st.block16 = c.st.block16 ∧ d.st.tmpAddr = c.st.tmpAddr ∧ d.st.tmp2Addr = c.st.tmp2Addr) ∧
    SameShape l m
  | .reset :: l, .reset :: m => SameShape l m
  | [], [] => True
  | _, _ => False

end Panda
