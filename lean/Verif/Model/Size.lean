import Verif.Model.Flat

/-! # characteristic_size of the parts of a vessel (SR_Vessel/SR_hauptteile.py) -/

namespace Srep

/-- the parts of a vessel by their class, as far as `characteristic_size` depends on it: `Mantel` and `StandZarge`
(SR_Vessel/SR_hauptteile.py:615, 1295), `Klopperboden` and `Korbbogenboden` (851, 873), `Flachboden` (895; no `Rohrboden` can be made, C105),
`KegelKrempe` (988), `RaumEnde` (1308) -/
inductive AnyPart (K : Type)
  | shell (m : MantelDim K)
  | head (m : HeadDim K)
  | plate (m : PlateDim K)
  | krempe
  | raumende (m : PlateDim K)

section
variable {K : Type} [Field K] [LinearOrder K] [IsStrictOrderedRing K] [FloorRing K]

/-- `Mantel.characteristic_size`, SR_Vessel/SR_hauptteile.py:693-695 -/
def Rt.mantelSize (R : Rt K) (m : MantelDim K) : K := R.div (min m.d0 m.d1) 2

/-- `characteristic_size`, SR_Vessel/SR_hauptteile.py:478-485 (NotImplementedError of `Hauptteil`, not overridden by `RaumEnde`),
693-695, 771-773, 944-946, 1282-1284 (a `KegelKrempe` has no attribute `d`) -/
def Rt.partSize (R : Rt K) : AnyPart K → Except PyErr K
  | .shell m => .ok (R.mantelSize m)
  | .head m => .ok (R.headSize m)
  | .plate m => .ok (R.plateSize m)
  | .krempe => .error .attribute
  | .raumende _ => .error .notImplemented

end
end Srep
