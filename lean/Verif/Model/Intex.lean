import Verif.Model.Vessel

/-!
# Reference points of shells and the relation of rooms to parts (SR_Vessel/SR_hauptteile.py)

The result of a computation is `.ok`, `.error (some x)` if the exception `x` is raised, and `.error none` if a random loop
of `is_internal_point` has not ended after `fuel` rounds.  Every call of `is_internal_point` has its own random targets.
-/

namespace Srep

section
variable {K : Type} [Field K] [LinearOrder K] [IsStrictOrderedRing K] [FloorRing K]

namespace Rt
variable (R : Rt K)

/-- `sorted(s.ij, key=lambda x: x.y)`, SR_Vessel/SR_hauptteile.py:659 (a stable sort) -/
def _root_.Srep.lowUp (s : Seg K) : Pt K × Pt K := if s.j.y < s.i.y then (s.j, s.i) else (s.i, s.j)

/-- `_e[0]`, SR_Vessel/SR_hauptteile.py:661 (`Mantel`: `c = 50000`, `cap = .002`) and 1263 (`KegelKrempe`: `c = 500`,
`cap = 20`); `_e[1]` is not used -/
def intexOffset (posH c cap : K) (s : Seg K) : K :=
  |min (R.div (R.sub (lowUp s).2.y (lowUp s).1.y) 10) (min (R.div (R.sub (lowUp s).1.x posH) c) (R.fl cap))|

/-- the two points at one ratio, SR_Vessel/SR_hauptteile.py:664-666 -/
def intexPair (posH c cap : K) (s : Seg K) (ratio : K) : Except PyErr (List (Pt K)) :=
  (R.pointAtRatio s (R.fl ratio)).map fun tp =>
    [R.mkPt (R.add tp.x (R.intexOffset posH c cap s)) tp.y, R.mkPt (R.sub tp.x (R.intexOffset posH c cap s)) tp.y]

/-- the four points `_ret` of one segment of the graph, SR_Vessel/SR_hauptteile.py:656-666 -/
def intexFour (posH c cap : K) (s : Seg K) : Except PyErr (List (Pt K)) :=
  match R.intexPair posH c cap s (1 / 100), R.intexPair posH c cap s (99 / 100) with
  | .ok a, .ok b => .ok (a ++ b)
  | .error e, _ => .error e
  | _, .error e => .error e

/-- one round of the loop over `_ret`, SR_Vessel/SR_hauptteile.py:681-687: internal (`true`), external (`false`) or an
exception; `l` are the segments of the part, `ω 0 ... ω 3` the targets of the calls -/
def intexClass (l : List (Seg K)) (r : Pt K) (ω : ℕ → ℕ → Pt K) (fuel : ℕ) : Except (Option PyErr) Bool :=
  match R.plInternal l r (ω 0) fuel with
  | none => .error none
  | some a =>
    match (if a then R.plExternal l r (ω 1) fuel else some true) with
    | none => .error none
    | some false => .ok true
    | some true =>
      match R.plInternal l r (ω 2) fuel with
      | none => .error none
      | some true => .error (some .generic)
      | some false =>
        match R.plExternal l r (ω 3) fuel with
        | none => .error none
        | some true => .ok false
        | some false => .error (some .generic)

/-- the loop over `_ret`, SR_Vessel/SR_hauptteile.py:681-687: the lists `internal` and `external` -/
def intexSort (l : List (Seg K)) (fuel : ℕ) : (ℕ → ℕ → ℕ → Pt K) → List (Pt K) →
    Except (Option PyErr) (List (Pt K) × List (Pt K))
  | _, [] => .ok ([], [])
  | ω, r :: rs =>
    match R.intexClass l r (ω 0) fuel with
    | .error e => .error e
    | .ok b =>
      (intexSort l fuel (fun n => ω (n + 1)) rs).map fun q => if b then (r :: q.1, q.2) else (q.1, r :: q.2)

/-- `intex_points[s]` of a `Mantel`, SR_Vessel/SR_hauptteile.py:644-691, for the segment `s` of its graph; `l` are the
segments of the shell.  The property computes all segments at each access. -/
def mantelIntex (l : List (Seg K)) (posH : K) (s : Seg K) (ω : ℕ → ℕ → ℕ → Pt K) (fuel : ℕ) :
    Except (Option PyErr) (List (Pt K) × List (Pt K)) :=
  match R.intexFour posH 50000 (2 / 1000) s with
  | .error e => .error (some e)
  | .ok r => R.intexSort l fuel ω r

end Rt

/-! ### raum_intex -/

/-- a part with its graph: name, segments of the graph, reference points with the segment they belong to -/
structure GPart (ν K : Type) where
  name : ν
  segs : List (Seg K)
  internal : List (Pt K × Seg K)
  external : List (Pt K × Seg K)
  indifferent : List (Pt K × Seg K)

/-- a room: its name and its walls (`ganze_wandung`), SR_Vessel/SR_hauptteile.py:185-188 -/
structure GRoom (ν ρ K : Type) where
  name : ρ
  walls : List (GPart ν K)

/-- the keys of the inner dicts -/
inductive IntexKind
  | innen
  | aussen
  | indifferent
  deriving DecidableEq

/-- the reference points concerned -/
def GPart.pts {ν K : Type} (g : GPart ν K) : IntexKind → List (Pt K × Seg K)
  | .innen => g.internal
  | .aussen => g.external
  | .indifferent => g.indifferent

/-- `graph_as_polygon`, SR_Vessel/SR_hauptteile.py:194-195 -/
def GRoom.polygon {ν ρ K : Type} (r : GRoom ν ρ K) : List (Seg K) := r.walls.flatMap GPart.segs

namespace Rt
variable (R : Rt K)

/-- `all_points`, geometry/SR_polygon.py:300-303, without the sorting -/
def occurrences (l : List (Seg K)) : List (Pt K) := l.flatMap fun s => [s.i, s.j]

/-- `remove_outlier_segments`, geometry/SR_polygon.py:1682-1686; `count` and `in` compare by `==`, the order does not
matter -/
def removeOutliers (l : List (Seg K)) : List (Seg K) :=
  let sp := (occurrences l).filter fun x => decide ((occurrences l).countP (fun y => R.peq y x) = 1)
  l.filter fun s => !([s.i, s.j].any fun y => sp.any fun x => R.peq x y)

/-- `all((raum_graph.is_internal_point(p=P) for P in ...))`: stops at the first False -/
def allInternal (l : List (Seg K)) (fuel : ℕ) : (ℕ → ℕ → Pt K) → List (Pt K) → Option Bool
  | _, [] => some true
  | ω, p :: ps =>
    match R.plInternal l p (ω 0) fuel with
    | none => none
    | some false => some false
    | some true => allInternal l fuel (fun n => ω (n + 1)) ps

/-- `[x for x in ht_graph.internal if x.segment == s]`, SR_Vessel/SR_hauptteile.py:396, 410, 422 -/
def ptsAt (g : GPart ν K) (k : IntexKind) (s : Seg K) : List (Pt K) :=
  ((g.pts k).filter fun x => R.seq x.2 s).map Prod.fst

/-- Does the answer `a` of `all` put the room into the set?  SR_Vessel/SR_hauptteile.py:397, 411, 423 (`not all`) -/
def _root_.Srep.IntexKind.adds (k : IntexKind) (a : Bool) : Bool :=
  match k with
  | .indifferent => !a
  | _ => a

/-- one of the loops over the segments of a part, SR_Vessel/SR_hauptteile.py:394-398, 408-412, 421-424: is the room
added?  `none`: a random loop has not ended -/
def intexLoop (l : List (Seg K)) (g : GPart ν K) (k : IntexKind) (fuel : ℕ) : (ℕ → ℕ → ℕ → Pt K) → List (Seg K) → Option Bool
  | _, [] => some false
  | ω, s :: ss =>
    match R.allInternal l fuel (ω 0) (R.ptsAt g k s) with
    | none => none
    | some a => (intexLoop l g k fuel (fun n => ω (n + 1)) ss).map fun b => k.adds a || b

/-- `if ht_graph.internal:` and the loop, SR_Vessel/SR_hauptteile.py:391-424 -/
def intexAdds (l : List (Seg K)) (g : GPart ν K) (k : IntexKind) (fuel : ℕ) (ω : ℕ → ℕ → ℕ → Pt K) : Option Bool :=
  if (g.pts k).isEmpty then some false else R.intexLoop l g k fuel ω g.segs

/-- a loop that collects: the results for all elements, one after the other; `n` is the position of the first element -/
def _root_.Srep.collect {α β : Type} (f : ℕ → α → Option (List β)) (n : ℕ) : List α → Option (List β)
  | [] => some []
  | a :: as =>
    match f n a with
    | none => none
    | some x => (collect f (n + 1) as).map (x ++ ·)

/-- the three tests for the part `g` and the polygon `l` of the room `r`, SR_Vessel/SR_hauptteile.py:385-424 -/
def intexPart (l : List (Seg K)) (r : ρ) (g : GPart ν K) (fuel : ℕ) (ω : IntexKind → ℕ → ℕ → ℕ → Pt K) :
    Option (List (ν × IntexKind × ρ)) :=
  collect (fun _ k => (R.intexAdds l g k fuel (ω k)).map fun b => if b then [(g.name, k, r)] else []) 0
    [IntexKind.innen, IntexKind.aussen, IntexKind.indifferent]

/-- The triples (part, kind, room) that `raum_intex` records, SR_Vessel/SR_hauptteile.py:356-429: the name of the room is
in `_ret[part][kind]` iff the triple is in the list.  `ω i j k` are the targets met for the j-th wall of the i-th room.
Not modelled: `triangulate`, whose result is not used (an exception raised in it would end the call), and the deep copy. -/
def raumIntex (rooms : List (GRoom ν ρ K)) (fuel : ℕ) (ω : ℕ → ℕ → IntexKind → ℕ → ℕ → ℕ → Pt K) :
    Option (List (ν × IntexKind × ρ)) :=
  collect (fun i r => collect (fun j g => R.intexPart (R.removeOutliers r.polygon) r.name g fuel (ω i j)) 0 r.walls) 0 rooms

end Rt
end

/-! ### reference points of the graph -/

section
variable {K : Type} [Field K] [LinearOrder K] [IsStrictOrderedRing K] [FloorRing K] {ν ε : Type}

/-- an evaluation of all elements that stops at the first error; `n` is the position of the first element -/
def evalAll {α β : Type} (f : ℕ → α → Except ε β) (n : ℕ) : List α → Except ε (List β)
  | [] => .ok []
  | a :: as =>
    match f n a with
    | .error e => .error e
    | .ok b => (evalAll f (n + 1) as).map (b :: ·)

/-- `add_intex_points`, geometry/SR_polygon_group.py:769-786, from the segment number `i` on.  `ev n` is the n-th evaluation
of `hauptteil.intex_points`: one per segment for the keys, and one per segment and key.  The dict is read by the position
of the segment (simplification: the segments of a graph are different as keys); the result is (internal, external), the
list 'indifferent' is empty for shells and heads.  `IntexPoint` rounds the coordinates again, which changes nothing. -/
def addIntex (ev : ℕ → Except ε (List (List (Pt K) × List (Pt K)))) :
    ℕ → List (Seg K) → Except ε (List (Pt K × Seg K) × List (Pt K × Seg K))
  | _, [] => .ok ([], [])
  | i, s :: ss =>
    match ev (4 * i), ev (4 * i + 1), ev (4 * i + 2), ev (4 * i + 3) with
    | .ok _, .ok a, .ok b, .ok _ =>
      (addIntex ev (i + 1) ss).map fun q =>
        ((a.getD i ([], [])).1.map (fun p => (p, s)) ++ q.1, (b.getD i ([], [])).2.map (fun p => (p, s)) ++ q.2)
    | .error e, _, _, _ => .error e
    | .ok _, .error e, _, _ => .error e
    | .ok _, .ok _, .error e, _ => .error e
    | .ok _, .ok _, .ok _, .error e => .error e

/-- the part `name` whose graph has the segments `segs`; SR_Vessel/SR_hauptteile.py:625-626, 740-741 -/
def graphPart (name : ν) (segs : List (Seg K)) (ev : ℕ → Except ε (List (List (Pt K) × List (Pt K)))) : Except ε (GPart ν K) :=
  (addIntex ev 0 segs).map fun q => ⟨name, segs, q.1, q.2, []⟩

/-- a `Mantel` or a skirt with the segments `l` and the graph `segs`; `ω e i` are the targets met in the evaluation `e` of
`intex_points` for the segment number `i`; SR_Vessel/SR_hauptteile.py:616-626, 644-691 -/
def Rt.shellPart (R : Rt K) (name : ν) (l segs : List (Seg K)) (posH : K) (ω : ℕ → ℕ → ℕ → ℕ → ℕ → Pt K) (fuel : ℕ) :
    Except (Option PyErr) (GPart ν K) :=
  graphPart name segs fun e => evalAll (fun i s => R.mantelIntex l posH s (ω e i) fuel) 0 segs

/-- a torispherical head, SR_Vessel/SR_hauptteile.py:731-765 -/
def Rt.headPart (R : Rt K) (name : ν) (m : HeadDim K) : Except PyErr (GPart ν K) :=
  graphPart name (R.headGraph m) fun _ => evalAll (fun _ s => R.headIntex m s) 0 (R.headGraph m)

end

end Srep
