import Verif.Model.Heap

/-!
# Groups of polygons (geometry/SR_polygon_group.py) and `walk_segments` (geometry/SR_polygon.py)

A group is a list of polylines in memory.  Python sets of segments iterate in an unspecified order: the functions
below take a `SetOrder`, which is asked every time a set is iterated.
-/

namespace Srep

section
variable {K : Type} [Field K] [LinearOrder K] [IsStrictOrderedRing K] [FloorRing K]

/-- iteration orders of the sets of segments met during an execution, one for every iteration -/
abbrev SetOrder := ℕ → List ℕ → List ℕ

/-- a set iterates over its members in some order -/
def SetOrder.Ok (π : SetOrder) : Prop := ∀ k l, (π k l).Perm l

/-- `itertools.combinations(l, r)`, in the order of Python -/
def combos {α : Type} : ℕ → List α → List (List α)
  | 0, _ => [[]]
  | _ + 1, [] => []
  | n + 1, a :: l => ((combos n l).map (a :: ·)) ++ combos (n + 1) l

namespace Rt
variable (R : Rt K)

/-! ### nodes and adjacency -/

/-- `representative_graph`, geometry/SR_polygon_group.py:239-249: a polyline on the segment objects of all
polygons, purged (so that equal Points become the same object in all polygons of the group) -/
def reprGraph (h : Heap K) (G : List PLine) : Heap K × PLine := R.purge h ⟨G.flatMap PLine.segs, false⟩

/-- the look-up `d[p]` in the dict `{k: v for k, v in zip(pl.point_set, range(len(pl.point_set)))}` of
`points_numbered`, geometry/SR_polygon_group.py:251-259; `none` is KeyError -/
def pointNumber (l : List (Seg K)) (p : Pt K) : Option ℕ :=
  (R.pointSet l).findIdx? fun q => decide (R.phash q = R.phash p) && R.peq q p

/-- `as_adjacency_list(as_numbered=True)` on the segment values `l` of the representative graph,
geometry/SR_polygon_group.py:283-289; `none` is KeyError -/
def adjNumbered (l : List (Seg K)) : Option (List (ℕ × List ℕ)) :=
  (R.pointSet l).mapM fun p => do
    let k ← R.pointNumber l p
    let v ← (R.neighbour l p).mapM (R.pointNumber l)
    pure (k, v.insertionSort (· ≤ ·))

/-- `as_adjacency_list()` with Points as keys, geometry/SR_polygon_group.py:278-281 -/
def adjPoints (l : List (Seg K)) : List (Pt K × List (Pt K)) := (R.pointSet l).map fun p => (p, R.neighbour l p)

/-- `nd[n]`, geometry/SR_polygon_group.py:171-172, for the list `ds` of the node degrees -/
def _root_.Srep.degCount (ds : List ℕ) (n : ℕ) : ℕ := (ds.filter fun d => decide (d = n)).length

/-- the degree checks of `isvalid`, geometry/SR_polygon_group.py:174-190, for the list `ds` of the node degrees -/
def _root_.Srep.degreesOk (ds : List ℕ) : Bool :=
  if 0 < degCount ds 0 then false
  else if 0 < degCount ds 1 then false
  else if degCount ds 2 < 3 then false
  else if degCount ds 3 % 2 = 1 then false
  else if 0 < ((List.range 6).filter fun x => decide (0 < degCount ds (x + 4))).length then false
  else true

/-- `PolygonGroup.isvalid`, geometry/SR_polygon_group.py:157-198; the representative graph is built (and memory
purged) twice: in `as_adjacency_list` and in `points_numbered`.  `none` is KeyError. -/
def groupValid (h : Heap K) (G : List PLine) : Option (Heap K × Bool) :=
  let h1 := (R.reprGraph h G).1
  let h2 := (R.reprGraph h1 G).1
  match R.adjNumbered (h2.vals (G.flatMap PLine.segs)) with
  | none => none
  | some al =>
    some (h2, degreesOk (al.map fun x => x.2.length) && G.all fun P => R.plValid (h2.vals P.segs))

/-! ### cycles as sets of parts -/

/-- `disjunct_cycles`, geometry/SR_polygon_group.py:378-401; `inter` is the intersection of the two sets -/
def _root_.Srep.disjunctCycles {α : Type} (inter : List α → List α → List α) (cycles : List (ℕ × List α)) :
    List (ℕ × List (List α)) :=
  cycles.map fun e => (e.1, (cycles.filter fun z => decide (z.1 ≠ e.1)).flatMap fun z =>
    if 0 < ([] : List α).length then [inter e.2 z.2] else [])

/-- `d[k] = v` of a dict with insertion order -/
def _root_.Srep.dictSet {κ α : Type} [DecidableEq κ] (d : List (κ × α)) (k : κ) (v : α) : List (κ × α) :=
  if d.any fun x => decide (x.1 = k) then d.map fun x => if x.1 = k then (k, v) else x else d ++ [(k, v)]

/-- `overlaps_in_cycles`, geometry/SR_polygon_group.py:482-503; `inter` is the intersection of the two sets as a
list -/
def _root_.Srep.overlapsInCycles {α : Type} (inter : List α → List α → List α) (cycles : List (ℕ × List α)) :
    List ((ℕ × ℕ) × List α) :=
  cycles.foldl (fun d e =>
    (cycles.filter fun z => decide (z.1 ≠ e.1)).foldl (fun d z =>
      let intr := inter e.2 z.2
      if intr ≠ [] ∧ ¬ (d.any fun x => decide (x.1 = (z.1, e.1))) then
        dictSet d (min e.1 z.1, max e.1 z.1) intr
      else d) d) []

/-! ### removing cycles by their areas -/

/-- `for p in polygons: if <test>: polygons.remove(p)`, geometry/SR_polygon_group.py:653-656: the list is changed
while a position runs through it, so the element after a removed one is skipped; `eqv` is `==` -/
def _root_.Srep.removeScan {α : Type} (eqv : α → α → Bool) (rem : α → Bool) : ℕ → ℕ → List α → List α
  | 0, _, l => l
  | fuel + 1, k, l =>
    match l[k]? with
    | none => l
    | some p => removeScan eqv rem fuel (k + 1) (if rem p then l.eraseP (fun x => eqv x p) else l)

/-- the test `abs(p.area - sum([tri.area for tri in _all_tris])) < EPS`, geometry/SR_polygon_group.py:652-654 -/
def areaMatch {α : Type} (area : α → K) (tris : α → List K) (comb : List α) (p : α) : Bool :=
  decide (|R.sub (area p) (R.psum (comb.flatMap tris))| < R.eps)

/-- the rounds of `while comblen < len(polygons) + 1` of `keep_base_polygons`,
geometry/SR_polygon_group.py:647-656.  `area` is the area of a polygon, `tris` are the areas of its triangles. -/
def areaReduce {α : Type} (eqv : α → α → Bool) (area : α → K) (tris : α → List K) : ℕ → ℕ → List α → List α
  | 0, _, l => l
  | fuel + 1, comblen, l =>
    if comblen < l.length + 1 then
      areaReduce eqv area tris fuel (comblen + 1)
        ((combos (comblen + 1) l).foldl
          (fun l' comb => removeScan eqv (R.areaMatch area tris comb) l'.length 0 l') l)
    else l

/-- the reduction by areas in `keep_base_polygons`, geometry/SR_polygon_group.py:647-656, to its end -/
def keepByArea {α : Type} (eqv : α → α → Bool) (area : α → K) (tris : α → List K) (l : List α) : List α :=
  R.areaReduce eqv area tris (l.length + 1) 1 l

/-! ### finding loops -/

/-- hash of a LineSegment object, geometry/SR_line.py:62-63 (simplified: the hashes of its Points) -/
def segHash (h : Heap K) (s : ℕ) : Int × Int := (R.phash (h.val s).i, R.phash (h.val s).j)

/-- a Python set of LineSegment objects: addresses, with the hash each member had when it was added (the hash of
a LineSegment changes when it is reversed) -/
abbrev SegSet := List (ℕ × (Int × Int))

/-- a member is the object itself or an equal one, provided the hashes agree -/
def setHit (h : Heap K) (x : ℕ) (y : ℕ × (Int × Int)) : Bool :=
  decide (y.2 = R.segHash h x) && (decide (y.1 = x) || R.seq (h.val y.1) (h.val x))

/-- `S.add(x)` -/
def setAdd (h : Heap K) (S : SegSet) (x : ℕ) : SegSet :=
  if S.any (R.setHit h x) then S else S ++ [(x, R.segHash h x)]

/-- `S.discard(x)` -/
def setDiscard (h : Heap K) (S : SegSet) (x : ℕ) : SegSet := S.eraseP (R.setHit h x)

/-- `set(l)` -/
def setOf (h : Heap K) (l : List ℕ) : SegSet := l.foldl (R.setAdd h) []

/-- state of the loop of `walk_segments`: memory, `_not_visited`, `_visited`, `_aktsegment`, `_aktpt`,
`_has_branch`, and the number of set iterations so far -/
structure WalkSt (K : Type) where
  h : Heap K
  nv : SegSet
  vis : SegSet
  akt : ℕ
  pt : ℕ
  branch : Bool
  k : ℕ

/-- result of `walk_segments`: False, a polyline, or an exception; `timeout` if the loop has not stopped -/
inductive WalkRes (K : Type)
  | no (h : Heap K)
  | found (h : Heap K) (P : PLine)
  | raised (e : PyErr)
  | timeout

/-- the candidates for `_nextsegment`, geometry/SR_polygon.py:1857-1861 -/
def walkNext (π : SetOrder) (w : WalkSt K) : List ℕ :=
  let a := (π w.k (w.nv.map Prod.fst)).filter fun x =>
    R.peq (w.h.pt w.pt) (w.h.val x).i && !R.seq (w.h.val x) (w.h.val w.akt)
  if a ≠ [] then a
  else (π w.k (w.nv.map Prod.fst)).filter fun x =>
    R.onEnds (w.h.pt w.pt) (w.h.val x) && !R.seq (w.h.val x) (w.h.val w.akt)

/-- one round of the loop of `walk_segments`, geometry/SR_polygon.py:1857-1876: the result, or the next state -/
def walkStep (π : SetOrder) (w : WalkSt K) : WalkRes K ⊕ WalkSt K :=
  match R.walkNext π w with
  | [] => .inl (.no w.h)
  | nxt :: more =>
    let branch := w.branch || decide (0 < more.length)
    let vis := R.setAdd w.h w.vis w.akt
    let nv := R.setDiscard w.h w.nv w.akt
    let h1 := w.h.deepcopy
    let akt := nxt + w.h.nseg
    match [(h1.seg akt).i, (h1.seg akt).j].find? fun x => !R.peq (h1.pt x) (h1.pt w.pt) with
    | none => .inl (.raised .index)
    | some pt =>
      let h2 := h1.deepcopy
      let segs := R.setAdd h2 (R.setOf h2 (vis.map fun y => y.1 + h1.nseg)) nxt
      match R.order h2 ⟨π (w.k + 1) (segs.map Prod.fst), false⟩ with
      | .timeout => .inl .timeout
      | .raised _ e => .inl (.raised e)
      | .failed h3 => .inr ⟨h3, nv, vis, akt, pt, branch, w.k + 2⟩
      | .done h3 ret =>
        match R.isClosed (h3.vals ret) with
        | .error e => .inl (.raised e)
        | .ok c =>
          if c && !branch then .inl (.found h3 ⟨ret, false⟩)
          else .inr ⟨h3, nv, vis, akt, pt, branch, w.k + 2⟩

/-- the loop of `walk_segments`, geometry/SR_polygon.py:1856-1878 -/
def walkLoop (π : SetOrder) : ℕ → WalkSt K → WalkRes K
  | 0, _ => .timeout
  | fuel + 1, w =>
    if w.nv.length = 0 then .no w.h
    else match R.walkStep π w with
      | .inl r => r
      | .inr w' => walkLoop π fuel w'

/-- `walk_segments(segments)` (startingpoint=None), geometry/SR_polygon.py:1842-1878; `k` is the number of set
iterations so far -/
def walkSegments (π : SetOrder) (fuel k : ℕ) (h : Heap K) (segs : List ℕ) : WalkRes K :=
  match segs with
  | [] => .raised .index
  | a :: _ =>
    let h1 := h.deepcopy
    let nv := R.setOf h1 (segs.map (· + h.nseg))
    match (π k (nv.map Prod.fst)).filter fun x => R.peq (h1.pt (h1.seg a).i) (h1.val x).i with
    | [] => .raised .index
    | akt :: _ => R.walkLoop π fuel ⟨h1, nv, [(akt, R.segHash h1 akt)], akt, (h1.seg a).i, false, k + 1⟩

/-- `P in cycles` -/
def inCycles (h : Heap K) (P : PLine) (cycles : List PLine) : Bool :=
  cycles.any fun Q => R.plEq .polygonLine (h.vals Q.segs) .polygonLine (h.vals P.segs)

/-- `x not in P.segments and x.line_reversed not in P.segments`, geometry/SR_polygon_group.py:569 -/
def keepSeg (h : Heap K) (P : PLine) (x : ℕ) : Bool :=
  !R.inSegs h x P.segs && !P.segs.any fun y => R.seq (h.val y) (h.val x).lineReversed

/-- outcome of `find_loops` -/
inductive LoopRes (K : Type)
  | ok (h : Heap K) (graph : List ℕ) (cycles : List PLine)
  | raised (e : PyErr)
  | timeout

/-- the first stage of `find_loops`, geometry/SR_polygon_group.py:566-570; `wf` bounds the rounds of a walk.
The set iterations of the walks are numbered from `k`; a walk uses less than `2 * wf + 1` of them. -/
def loopsWalk (π : SetOrder) (wf : ℕ) : ℕ → ℕ → Heap K → List ℕ → List PLine → LoopRes K
  | 0, _, _, _, _ => .timeout
  | fuel + 1, k, h, graph, cycles =>
    match R.walkSegments π wf k h graph with
    | .timeout => .timeout
    | .raised e => .raised e
    | .no h' => .ok h' graph cycles
    | .found h' P =>
      if R.inCycles h' P cycles then .ok h' graph cycles
      else loopsWalk π wf fuel (k + 2 * wf + 1) h' (graph.filter (R.keepSeg h' P)) (cycles ++ [P])

/-- `Counter(points)`: the number of occurrences of each key -/
def counter (l : List (Pt K)) : List (Pt K × ℕ) :=
  l.foldl (fun c p =>
    if c.any fun x => decide (R.phash x.1 = R.phash p) && R.peq x.1 p then
      c.map fun x => if decide (R.phash x.1 = R.phash p) && R.peq x.1 p then (x.1, x.2 + 1) else x
    else c ++ [(p, 1)]) []

/-- `set(c.values()) == {2}`, geometry/SR_polygon_group.py:582-584 -/
def allTwo (l : List (Pt K)) : Bool :=
  decide (R.counter l ≠ []) && (R.counter l).all fun x => decide (x.2 = 2)

/-- one combination in the second stage of `find_loops`, geometry/SR_polygon_group.py:577-606 -/
def loopsTry (h : Heap K) (graph : List ℕ) (cycles : List PLine) (p : List ℕ) : LoopRes K :=
  if !R.allTwo (endPts (h.vals p)) then .ok h graph cycles
  else match R.order h ⟨p, false⟩ with
    | .timeout => .timeout
    | .raised _ e => .raised e
    | .failed h' => .ok h' graph cycles
    | .done h' ret =>
      match R.plValid (h'.vals ret), R.isClosed (h'.vals ret) with
      | false, _ => .ok h' graph cycles
      | true, .error e => .raised e
      | true, .ok c =>
        if c && !R.inCycles h' ⟨ret, false⟩ cycles then
          let cycles' := cycles ++ [⟨ret, false⟩]
          if (endPts (h'.vals ret)).all fun x =>
              decide (((endPts (h'.vals graph)).filter fun y => R.peq y x).length = 2) then
            .ok h' (graph.filter (R.keepSeg h' ⟨ret, false⟩)) cycles'
          else .ok h' graph cycles'
        else .ok h' graph cycles

/-- the loop over the combinations of one length, geometry/SR_polygon_group.py:577-606 -/
def loopsCombs : List (List ℕ) → Heap K → List ℕ → List PLine → LoopRes K
  | [], h, graph, cycles => .ok h graph cycles
  | p :: ps, h, graph, cycles =>
    match R.loopsTry h graph cycles p with
    | .ok h' g' c' => loopsCombs ps h' g' c'
    | r => r

/-- the second stage of `find_loops`, geometry/SR_polygon_group.py:573-606 -/
def loopsComb : ℕ → ℕ → Heap K → List ℕ → List PLine → LoopRes K
  | 0, _, _, _, _ => .timeout
  | fuel + 1, comblen, h, graph, cycles =>
    if comblen ≤ graph.length then
      match R.loopsCombs (combos (comblen + 1) graph) h graph cycles with
      | .ok h' g' c' => loopsComb fuel (comblen + 1) h' g' c'
      | r => r
    else .ok h graph cycles

/-- `find_loops()`, geometry/SR_polygon_group.py:544-610, for the group `G`; the result has the sorted cycles.
`fuel` bounds the rounds of each loop. -/
def findLoops (π : SetOrder) (fuel : ℕ) (h : Heap K) (G : List PLine) : LoopRes K :=
  match R.loopsWalk π fuel fuel 1 h (π 0 ((R.setOf h (G.flatMap PLine.segs)).map Prod.fst)) [] with
  | .ok h1 g1 c1 =>
    match R.loopsComb (g1.length + 1) 1 h1 g1 c1 with
    | .ok h2 g2 c2 => .ok h2 g2 (c2.insertionSort fun P Q => P.segs.length ≤ Q.segs.length)
    | r => r
  | r => r

end Rt
end
end Srep
