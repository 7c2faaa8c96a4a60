import Verif.Model.Flat

/-!
# Parts from dicts (`from_dict`, SR_Vessel/SR_hauptteile.py)

The keys are strings.  The values are numbers, sequences of numbers or anything else; a value that is not a number where
one is needed makes the constructor raise a TypeError (simplification: the first operation with it).  `hasattr(part, x)` may
evaluate a property; it is an argument `attr` here: present, absent or an exception.  The reference points of the new part
(C74, C94, C104) are not part of this model.
-/

namespace Srep

/-- a value in the dict -/
inductive DictVal (K : Type)
  | num (x : K)
  | nums (l : List K)
  | other
  deriving DecidableEq

/-- `adict` -/
abbrev PartDict (K : Type) := List (String × DictVal K)

/-- `adict[key]`, SR_Vessel/SR_hauptteile.py:632-636, 859-864, ... -/
def PartDict.get {K : Type} (d : PartDict K) (key : String) : Except PyErr (DictVal K) :=
  match d.lookup key with
  | some v => .ok v
  | none => .error .key

/-- `adict[key]` where the constructor needs a number -/
def DictVal.toNum {K : Type} : DictVal K → Except PyErr K
  | .num x => .ok x
  | _ => .error .type

/-- `d[0]`, `d[1]`, SR_Vessel/SR_hauptteile.py:717-720 -/
def DictVal.toPair {K : Type} : DictVal K → Except PyErr (K × K)
  | .nums (a :: b :: _) => .ok (a, b)
  | .nums _ => .error .index
  | _ => .error .type

/-- all the items that the call evaluates, in the order of the arguments -/
def PartDict.args {K : Type} (d : PartDict K) : List String → Except PyErr (List (DictVal K))
  | [] => .ok []
  | k :: ks =>
    match d.get k with
    | .error e => .error e
    | .ok v => (PartDict.args d ks).map (v :: ·)

/-- `[hasattr(part, x) for x in adict.keys()]`: stops at the first exception -/
def attrList {α : Type} (attr : α → Except PyErr Bool) : List α → Except PyErr (List Bool)
  | [] => .ok []
  | k :: ks =>
    match attr k with
    | .error e => .error e
    | .ok b => (attrList attr ks).map (b :: ·)

/-- the common form of the class methods `from_dict`, SR_Vessel/SR_hauptteile.py:628-642, 855-870, 876-892, 907-919, 969-983,
1063-1072, 1320-1333: the arguments, the constructor `make` and the assert are in one `try` that turns a KeyError into the
bare Exception -/
def fromDict {K O : Type} (keys : List String) (make : List (DictVal K) → Except PyErr O) (attr : O → String → Except PyErr Bool)
    (d : PartDict K) : Except PyErr O :=
  let r : Except PyErr O :=
    match d.args keys with
    | .error e => .error e
    | .ok v =>
      match make v with
      | .error e => .error e
      | .ok o =>
        match attrList (attr o) (d.map Prod.fst) with
        | .error e => .error e
        | .ok l => if l.all id then .ok o else .error .assertion
  match r with
  | .error .key => .error .generic
  | r => r

section
variable {K : Type} [Field K] [LinearOrder K] [IsStrictOrderedRing K] [FloorRing K]

namespace Rt
variable (R : Rt K)

/-- `Mantel(name=..., pos_v=..., pos_h=..., d=..., h=...)`, SR_Vessel/SR_hauptteile.py:616-626, 631-637 -/
def makeMantel (h : Heap K) : List (DictVal K) → Except PyErr (Heap K × Part2)
  | [_, v, x, d, t] => do
    let v ← v.toNum
    let x ← x.toNum
    let d ← d.toPair
    let t ← t.toNum
    return R.mantelNew h ⟨v, x, d.1, d.2, t⟩ .nonWall
  | _ => .error .type

/-- `Mantel.from_dict`, SR_Vessel/SR_hauptteile.py:628-642.  `StandZarge` inherits it, and it names the class `Mantel`. -/
def mantelFromDict (h : Heap K) (attr : Heap K × Part2 → String → Except PyErr Bool) (d : PartDict K) :
    Except PyErr (Heap K × Part2) :=
  fromDict ["name", "pos_v", "pos_h", "d", "h"] (R.makeMantel h) attr d

/-- `StandZarge.from_dict`: inherited from `Mantel`, SR_Vessel/SR_hauptteile.py:628-642, 1295-1305 -/
def standZargeFromDict (h : Heap K) (attr : Heap K × Part2 → String → Except PyErr Bool) (d : PartDict K) :
    Except PyErr (Heap K × Part2) := R.mantelFromDict h attr d

/-- `Klopperboden(...)` and `Korbbogenboden(...)`, SR_Vessel/SR_hauptteile.py:731-743, 858-865, 879-887 -/
def makeHead (h : Heap K) (k : HeadKind) : List (DictVal K) → Except PyErr (Heap K × PLine)
  | [_, v, x, d, h1, o] => do
    let v ← v.toNum
    let x ← x.toNum
    let d ← d.toNum
    let h1 ← h1.toNum
    let o ← o.toNum
    R.headNew h k ⟨v, x, d, h1, o⟩
  | _ => .error .type

/-- `Klopperboden.from_dict`, `Korbbogenboden.from_dict`, SR_Vessel/SR_hauptteile.py:855-870, 876-892 -/
def headFromDict (h : Heap K) (k : HeadKind) (attr : Heap K × PLine → String → Except PyErr Bool) (d : PartDict K) :
    Except PyErr (Heap K × PLine) :=
  fromDict ["name", "pos_v", "pos_h", "d", "h1", "orient"] (R.makeHead h k) attr d

/-- `Flachboden(...)` and `RaumEnde(...)`, SR_Vessel/SR_hauptteile.py:896-905, 910-915, 1309-1318, 1323-1328 -/
def makePlate (h : Heap K) : List (DictVal K) → Except PyErr (Heap K × Part2)
  | [_, v, x, d] => do
    let v ← v.toNum
    let x ← x.toNum
    let d ← d.toNum
    return R.plateNew h ⟨v, d, x⟩
  | _ => .error .type

/-- `Flachboden.from_dict`, `RaumEnde.from_dict`, SR_Vessel/SR_hauptteile.py:907-919, 1320-1333 -/
def plateFromDict (h : Heap K) (attr : Heap K × Part2 → String → Except PyErr Bool) (d : PartDict K) :
    Except PyErr (Heap K × Part2) :=
  fromDict ["name", "pos_v", "pos_h", "d"] (R.makePlate h) attr d

/-- `Rohrboden.__init__`, SR_Vessel/SR_hauptteile.py:965-967: `super(Rohrboden)` is an unbound super object, its `__init__`
does not take keyword arguments -/
def makeTubeSheet (_ : List (DictVal K)) : Except PyErr (Heap K × Part2) := .error .type

/-- `Rohrboden.from_dict`, SR_Vessel/SR_hauptteile.py:969-983 -/
def tubeSheetFromDict (attr : Heap K × Part2 → String → Except PyErr Bool) (d : PartDict K) : Except PyErr (Heap K × Part2) :=
  fromDict ["name", "pos_v", "pos_h", "d"] makeTubeSheet attr d

end Rt
end
end Srep
