import Verif.Spec.Config

/-!
# How far FIR resamplers overshoot
-/

namespace Panda

/-- For a non-decreasing input from 0 to 1 (thousandths): how far the output goes below 0, and how high it gets. -/
def overMilli : Mode → Nat → Nat → Nat × Nat
  | .up, 2, 8 => (134, 1131)
  | .up, 2, 12 => (134, 1134)
  | .up, 2, 16 => (135, 1134)
  | .up, 2, 20 => (135, 1135)
  | .up, 2, 24 => (135, 1135)
  | .up, 4, 8 => (134, 1131)
  | .up, 4, 12 => (134, 1134)
  | .up, 4, 16 => (135, 1134)
  | .up, 4, 20 => (135, 1135)
  | .up, 4, 24 => (135, 1135)
  | .up, 8, 8 => (138, 1133)
  | .up, 8, 12 => (138, 1137)
  | .up, 8, 16 => (138, 1138)
  | .up, 8, 20 => (139, 1139)
  | .up, 8, 24 => (139, 1139)
  | .down, 2, 8 => (67, 1066)
  | .down, 2, 12 => (67, 1067)
  | .down, 2, 16 => (68, 1068)
  | .down, 2, 20 => (68, 1068)
  | .down, 2, 24 => (68, 1068)
  | .down, 4, 8 => (82, 1082)
  | .down, 4, 12 => (83, 1083)
  | .down, 4, 16 => (83, 1083)
  | .down, 4, 20 => (84, 1084)
  | .down, 4, 24 => (84, 1084)
  | .down, 8, 8 => (86, 1084)
  | .down, 8, 12 => (87, 1086)
  | .down, 8, 16 => (87, 1087)
  | .down, 8, 20 => (87, 1087)
  | .down, 8, 24 => (88, 1088)
  | _, _, _ => (1, 1001)

end Panda
