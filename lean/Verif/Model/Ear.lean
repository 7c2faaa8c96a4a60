import Verif.Model.Heap

/-!
# Triangles as objects and ear clipping (geometry/SR_polygon.py)
-/

namespace Srep

section
variable {K : Type} [Field K] [LinearOrder K] [IsStrictOrderedRing K] [FloorRing K]

namespace Rt
variable (R : Rt K)

/-- `area` of a Triangle, geometry/SR_polygon.py:1028-1040, from its list of segments (of which there are three) -/
def triArea (l : List (Seg K)) : Except PyErr K :=
  match l with
  | [a, b, c] => R.heron a b c
  | _ => .error .index

/-- `is_triangle` of a Triangle (whose `area` is Heron's formula), geometry/SR_polygon.py:593-598; the tests are made
from left to right -/
def isTriangle (l : List (Seg K)) : Except PyErr Bool :=
  if (R.pointSet l).length = 3 ∧ l.length = 3 then
    match R.isClosed l with
    | .ok true => (R.triArea l).map fun A => decide (0 < A)
    | r => r
  else .ok false

/-- `Triangle.__init__`, geometry/SR_polygon.py:1014-1020: the segment objects are taken over, purged and put in order
(whether or not that succeeds).  `order` never times out (`C48_terminates`). -/
def triangleNew (h : Heap K) (segs : List ℕ) : Heap K × Except PyErr PLine :=
  let p := R.purge h ⟨segs, false⟩
  let check := fun (h' : Heap K) (l : List ℕ) => match R.isTriangle (h'.vals l) with
    | .ok true => (h', Except.ok ⟨l, p.2.purged⟩)
    | .ok false => (h', .error .generic)
    | .error e => (h', .error e)
  match R.order p.1 p.2 with
  | .done h' l => check h' l
  | .failed h' => check h' segs
  | .raised h' e => (h', .error e)
  | .timeout => (p.1, .error .generic)

/-- the Point objects `neighbour` returns, geometry/SR_polygon.py:108-110 -/
def nbRefs (h : Heap K) (segs : List ℕ) (p : Pt K) : List ℕ :=
  let sg := segs.filter fun s => R.onEnds p (h.val s)
  ((sg.filter fun s => !R.peq (h.val s).i p).map fun s => (h.seg s).i) ++
    ((sg.filter fun s => !R.peq (h.val s).j p).map fun s => (h.seg s).j)

/-- what happens in one round of `ear_clipping` -/
inductive EarStep (K : Type)
  | raised (h : Heap K) (e : PyErr)
  | rejected (h : Heap K)
  | clipped (h : Heap K) (C : PLine) (tri : List ℕ)

/-- one round of the loop of `ear_clipping`, geometry/SR_polygon.py:807-834, for the chosen point `cp` on the copy `C`;
`tok` stands for `triangle_ok`.  The evaluation of `collinear_points` needs two neighbours of every starting point
(geometry/SR_polygon.py:641-648); `LineSegment(*nb)` with one point only is an object whose `j` raises IndexError, with
more than two the others are not used. -/
def earRound (h : Heap K) (C : PLine) (cp : Pt K) (tok : Heap K → PLine → PLine → Bool) : EarStep K :=
  if C.segs.any fun s => decide ((R.nbRefs h C.segs (h.val s).i).length < 2) then .raised h .index
  else match R.nbRefs h C.segs cp with
    | a :: b :: _ =>
      let r := h.newSeg a b
      if R.isOnLine (r.1.val r.2) cp then .rejected r.1
      else
        let t := R.triangleNew r.1 ((C.segs.filter fun s => R.onEnds cp (h.val s)) ++ [r.2])
        match t.2 with
        | .error e => .raised t.1 e
        | .ok T =>
          if tok t.1 C T then
            let q := R.purge t.1 ⟨(C.segs.filter fun s => !R.inSegs t.1 s T.segs) ++ [r.2], C.purged⟩
            .clipped q.1 q.2 T.segs
          else .rejected t.1
    | _ => .raised h .index

/-- the loop of `ear_clipping`, geometry/SR_polygon.py:792-841, with `n` rounds left.  The chosen point is `sides[cp_index]`
or random; both are members of the current point set, and `choice` is asked for one.  `tris` are the triangles found so
far (geometry/SR_polygon.py:830; they go into a set, where equal ones would be stored once if the generator objects made for
their hashes had the same address; C90_distinct: there are no equal ones). -/
def earLoop (choice : ℕ → List (Pt K) → Pt K) (tok : ℕ → Heap K → PLine → PLine → Bool) :
    ℕ → Heap K → PLine → List (List ℕ) → Heap K × List (List ℕ) × Except PyErr Bool
  | n, h, C, tris =>
    if (R.pointSet (h.vals C.segs)).length < 3 then (h, tris, .ok true)
    else match n with
      | 0 => (h, tris, .ok false)
      | n + 1 =>
        match R.earRound h C (choice n (R.pointSet (h.vals C.segs))) (tok n) with
        | .raised h' e => (h', tris, .error e)
        | .rejected h' => earLoop choice tok n h' C tris
        | .clipped h' C' t => earLoop choice tok n h' C' (tris ++ [t])

/-- `ear_clipping`, geometry/SR_polygon.py:745-843: result, and the triangles stored (lists of segment objects in the
final memory).  `h` and `C` are memory and segments of the deep copy the function works on. -/
def earClipping (choice : ℕ → List (Pt K) → Pt K) (tok : ℕ → Heap K → PLine → PLine → Bool) (h : Heap K) (C : PLine) :
    Heap K × List (List ℕ) × Except PyErr Bool := R.earLoop choice tok 5000 h C []

end Rt
end
end Srep
