import Verif.Spec.Config
import Verif.Model.Lifetime

/-!
# What a program may do with resamplers, and what it may expect

The life of each named object, as the author of the program sees it: there is no object, it was moved from, or it holds a
resampler with a history of operations. Nothing here refers to the heap or to pointers.
-/

namespace Panda

variable {F : Type}

/-- The life of an object: none, moved from, or a resampler for `cfg` that has carried out `ops` with the results `os`. -/
inductive Life (F : Type) where
  | dead
  | moved
  | holds (cfg : Config) (ops : List (Op F)) (os : List (Option (Buf F)))

/-- Number of memory blocks that a resampler occupies: per stage 4 (FIR UP), 5 (FIR DOWN) or 1 (IIR). -/
def Config.blocks (cfg : Config) : Nat :=
  (if 2 ≤ cfg.ratio then 1 else 0) * stage + (if 4 ≤ cfg.ratio then 1 else 0) * stage + (if 8 ≤ cfg.ratio then 1 else 0) * stage
where stage : Nat :=
  match cfg.filter, cfg.mode with
  | .fir, .up => 4
  | .fir, .down => 5
  | .iir, _ => 1

/-- Number of memory blocks that an object occupies. -/
def Life.blocks : Life F → Nat
  | .holds cfg _ _ => cfg.blocks
  | _ => 0

/-- The rules: objects are constructed where there is none, only objects that exist are moved from, assigned to or destroyed,
only those that hold a resampler are used, and then as documented. -/
def Allowed (bld : Build) (l : Nat → Life F) : Stmt F → Prop
  | .construct k cfg => l k = .dead ∧ cfg.Valid ∧ cfg.bld = bld
  | .moveInit k j => l k = .dead ∧ l j ≠ .dead
  | .moveAssign k j => l k ≠ .dead ∧ l j ≠ .dead
  | .destroy k => l k ≠ .dead
  | .use k op => ∃ cfg ops os, l k = .holds cfg ops os ∧ cfg.OpOk op

/-- Replace entry `k`. -/
def setLife (l : Nat → Life F) (k : Nat) (x : Life F) : Nat → Life F := fun j => if j = k then x else l j

/-- The lives after a statement with a given outcome. -/
def nextLife (l : Nat → Life F) : Stmt F → Outcome F → Nat → Life F
  | .construct _ _, .threw => l
  | .construct k cfg, .done _ => setLife l k (.holds cfg [] [])
  | .moveInit k j, _ => setLife (setLife l j .moved) k (l j)
  | .moveAssign k j, _ => if k = j then l else setLife (setLife l j .moved) k (l j)
  | .destroy k, _ => setLife l k .dead
  | .use k op, .done o =>
    match l k with
    | .holds cfg ops os => setLife l k (.holds cfg (ops ++ [op]) (os ++ [o]))
    | _ => l
  | .use _ _, .threw => l

/-- `l'` are the lives after a program that obeys the rules at every step. -/
inductive Lives (bld : Build) : (Nat → Life F) → List (Stmt F) → List (Outcome F) → (Nat → Life F) → Prop
  | nil (l) : Lives bld l [] [] l
  | cons {l s o ss os l'} : Allowed bld l s → Lives bld (nextLife l s o) ss os l' → Lives bld l (s :: ss) (o :: os) l'

end Panda
