# Verification design

Source: `/repo` (jkbgbr/Srep3_old), read as text.  Nothing of it is executed.  The parts below "Coverage of the source"
and "Properties" are generated by `tools/design.py`.

## Trusted base

* Lean's kernel (4.33.0) and Mathlib as compiled.
* Axioms: every theorem depends on at most `propext`, `Classical.choice`, `Quot.sound` (checked with `#print axioms`).
  No axioms of our own, no `sorry`, no `native_decide`, no `bv_decide`.  Concrete witnesses are evaluated in the kernel
  (`decide +kernel`).
* The hand translation Python -> Lean.  Every model definition cites file and lines of the code it stands for.
* The specifications in `Verif/Spec` and the hypotheses of the theorems.  Next to the theorems there are `example`s that
  show the hypotheses can be met.

## How Python is modelled

* **Numbers** (`Model/Num.lean`).  A field `K` with order and floor; every float operation is the exact operation
  followed by `R.fl`, where `R : Rt K` is the runtime.  Theorems come in two tiers: *tier A* for every runtime with
  `R.IsRounding` (what IEEE binary64 guarantees barring overflow, underflow and NaN; the executable binary64 `Rt.b64`
  on Q is proved to be one), and *tier B* for `R.IsExact` (real arithmetic; `Rt.real` on R is proved to be one).  The
  rounding of stored coordinates to 8 decimals is kept in both tiers.  Not modelled: NaN, infinities, overflow,
  subnormals, signed zeros, accuracy of `libm`.
* **`round(x, 8)`** is `fl (rhe8 x)`: correct decimal rounding, half to even, then nearest float.
* **Transcendental functions** are opaque fields of the runtime.  What a theorem needs is an explicit hypothesis:
  `Rt.IsExactDir` (atan2 and degrees order directions), `Rt.IsExactAngle` (acos of cosines adds up), angle hypotheses
  stated in the theorem (cos, sin).  The real functions are proved to satisfy these laws.
* **hash** of a tuple of floats is an arbitrary function `R.hash`.  Python `set`s keep the first of elements with equal
  hash and `==`.  The iteration order of sets is irrelevant, or a parameter (`SetOrder`, lists standing for sets), and the
  theorems hold for all orders.
* **Exceptions** are values: `Except PyErr a`.
* **Object identity** is a heap of Point and LineSegment objects addressed by numbers (`Model/Heap.lean`) for all that
  mutates or shares objects (`move`, `mirror_vertical`, `rotate_about_origin`, `reverse`, `purge`, `order`, `add`,
  `find_loops`, `Mantel`); pure predicates work on values.
* **Randomness** is an oracle stream argument; loops without a static bound take fuel and return `none` when it runs
  out.  Theorems quantify over all oracles and all fuel, or prove that some fuel suffices.
* Geometry-level points are always valid, so `assert p.isvalid` never fires there; validity itself is treated by the
  object-level model in `Model/PointObj.lean`.
* Plotting, printing, `__repr__`, the external mesh generator `triangle`/`numpy` are not modelled.

## Layout

* `Verif/Model/*`: the model, by source file: `Num` (numbers), `Point`, `PointObj` (SR_point), `Line` (SR_line), `Polygon`
  and `Heap` (SR_polygon on values and in memory), `Delaunay` (triangulation), `Group` (SR_polygon_group), `Vessel`
  (SR_hauptteile, additional_stuff).
* `Verif/Spec/*`: independent specifications (`Geom`: lines, betweenness, determinants, closed chains; `Ray`: convex
  polygons, inside and outside, counting of sides; `Mesh`: consistency, planarity and area of meshes) and the concrete
  runtimes used in examples (`Example`).
* `Verif/Lemmas/*`: auxiliary lemmas.  `Verif/Props/*`: the property theorems, named `Cnn_...`.
* `seeded/LOG.jsonl`: wrong programs (edits of model definitions) the theorems were tested against.
