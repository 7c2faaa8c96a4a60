import Verif.Lemmas.BandSlab
import Verif.Lemmas.Bands
import Verif.Lemmas.CircleGeom
import Verif.Lemmas.Cluster
import Verif.Lemmas.Collinear
import Verif.Lemmas.Combos
import Verif.Lemmas.Complete
import Verif.Lemmas.CompleteB
import Verif.Lemmas.CompleteC
import Verif.Lemmas.Dyadic
import Verif.Lemmas.Ear
import Verif.Lemmas.EarB
import Verif.Lemmas.Err
import Verif.Lemmas.Exact
import Verif.Lemmas.Fillet
import Verif.Lemmas.FlipGeom
import Verif.Lemmas.Generic
import Verif.Lemmas.HeadArc
import Verif.Lemmas.HeadConvex
import Verif.Lemmas.HeadFl
import Verif.Lemmas.HeadGeo
import Verif.Lemmas.HeadHeap
import Verif.Lemmas.HeadPiece
import Verif.Lemmas.HeadSix
import Verif.Lemmas.Heap
import Verif.Lemmas.HeapExt
import Verif.Lemmas.Hull
import Verif.Lemmas.HullB
import Verif.Lemmas.HullC
import Verif.Lemmas.HullD
import Verif.Lemmas.IntexFl
import Verif.Lemmas.KrempeArc
import Verif.Lemmas.KrempeHeap
import Verif.Lemmas.KrempeRound
import Verif.Lemmas.Line
import Verif.Lemmas.Mesh
import Verif.Lemmas.MeshAdd
import Verif.Lemmas.MeshFlip
import Verif.Lemmas.MeshGeom
import Verif.Lemmas.MeshTerm
import Verif.Lemmas.Monotone
import Verif.Lemmas.Num
import Verif.Lemmas.Order
import Verif.Lemmas.OrderB
import Verif.Lemmas.PolyCycle
import Verif.Lemmas.Purge
import Verif.Lemmas.PurgeB
import Verif.Lemmas.RatEx
import Verif.Lemmas.Raum
import Verif.Lemmas.Ray
import Verif.Lemmas.RayErr
import Verif.Lemmas.Real
import Verif.Lemmas.Region
import Verif.Lemmas.Ring
import Verif.Lemmas.RingCombs
import Verif.Lemmas.RingOrder
import Verif.Lemmas.RingSides
import Verif.Lemmas.RingWalk
import Verif.Lemmas.Root
import Verif.Lemmas.Round
import Verif.Lemmas.RoundFinish
import Verif.Lemmas.RoundHeap
import Verif.Lemmas.SegExact
import Verif.Lemmas.Tiled
import Verif.Lemmas.TiledAdd
import Verif.Lemmas.TiledCount
import Verif.Lemmas.TiledCover
import Verif.Lemmas.TiledEmpty
import Verif.Lemmas.TiledNext
import Verif.Lemmas.TiledRun
import Verif.Lemmas.Tower
import Verif.Lemmas.TowerFloat
import Verif.Lemmas.TowerSlab
import Verif.Lemmas.TriRel
import Verif.Lemmas.Trig
import Verif.Lemmas.Turning
import Verif.Lemmas.ValidFloat
import Verif.Model.Again
import Verif.Model.Arc
import Verif.Model.Area
import Verif.Model.Collinear
import Verif.Model.Contained
import Verif.Model.Delaunay
import Verif.Model.DelaunayOf
import Verif.Model.Ear
import Verif.Model.EarOk
import Verif.Model.Ends
import Verif.Model.Flat
import Verif.Model.FromDict
import Verif.Model.Group
import Verif.Model.HeadSegs
import Verif.Model.Heap
import Verif.Model.Intex
import Verif.Model.KeepBase
import Verif.Model.Krempe
import Verif.Model.KrempeArc
import Verif.Model.KrempeIntex
import Verif.Model.Line
import Verif.Model.Lookup
import Verif.Model.Num
import Verif.Model.Overlap
import Verif.Model.Point
import Verif.Model.PointObj
import Verif.Model.Pointset
import Verif.Model.Polygon
import Verif.Model.Raum
import Verif.Model.RaumPoly
import Verif.Model.Renew
import Verif.Model.Rooms
import Verif.Model.Size
import Verif.Model.Split
import Verif.Model.Tools
import Verif.Model.TriAngles
import Verif.Model.TriRel
import Verif.Model.Triangulate
import Verif.Model.Vessel
import Verif.Props.Again
import Verif.Props.AnswersFloat
import Verif.Props.Arc
import Verif.Props.Area
import Verif.Props.Build
import Verif.Props.Collinear
import Verif.Props.Contained
import Verif.Props.ConvexAnswers
import Verif.Props.ConvexMesh
import Verif.Props.ConvexSimple
import Verif.Props.Delaunay
import Verif.Props.DelaunayAdd
import Verif.Props.DelaunayCircle
import Verif.Props.DelaunayCircleEx
import Verif.Props.DelaunayFlip
import Verif.Props.DelaunayIndex
import Verif.Props.DelaunayOf
import Verif.Props.Ear
import Verif.Props.EarConvex
import Verif.Props.EarOk
import Verif.Props.Ends
import Verif.Props.Flat
import Verif.Props.FlatIndex
import Verif.Props.FromDict
import Verif.Props.Group
import Verif.Props.GroupB
import Verif.Props.Head
import Verif.Props.HeadOutline
import Verif.Props.HeadValid
import Verif.Props.Hull
import Verif.Props.HullConvex
import Verif.Props.HullPoly
import Verif.Props.Internal
import Verif.Props.Intex
import Verif.Props.IntexFloat
import Verif.Props.IntexFloatEx
import Verif.Props.IsConvex
import Verif.Props.KeepBase
import Verif.Props.Krempe
import Verif.Props.KrempeArc
import Verif.Props.KrempeIntex
import Verif.Props.KrempeRound
import Verif.Props.KrempeUncut
import Verif.Props.LineA
import Verif.Props.LineB
import Verif.Props.LineC
import Verif.Props.LineD
import Verif.Props.LineE
import Verif.Props.Lookup
import Verif.Props.Loops
import Verif.Props.LoopsAll
import Verif.Props.LoopsMixed
import Verif.Props.LoopsSingle
import Verif.Props.LoopsVessel
import Verif.Props.Mantel
import Verif.Props.MantelB
import Verif.Props.Midpoint
import Verif.Props.Move
import Verif.Props.MoveB
import Verif.Props.Order
import Verif.Props.OrderCycle
import Verif.Props.Orient
import Verif.Props.Overlap
import Verif.Props.PlateFloat
import Verif.Props.Point
import Verif.Props.Pointset
import Verif.Props.Poly
import Verif.Props.Purge
import Verif.Props.Raum
import Verif.Props.RaumIntex
import Verif.Props.RaumPoly
import Verif.Props.RaumVessel
import Verif.Props.Ray
import Verif.Props.RayDraw
import Verif.Props.RayFloat
import Verif.Props.RaySide
import Verif.Props.Region
import Verif.Props.Renew
import Verif.Props.Rigid
import Verif.Props.Rooms
import Verif.Props.RoomsVessel
import Verif.Props.Size
import Verif.Props.Sphere
import Verif.Props.Split
import Verif.Props.Square
import Verif.Props.Targets
import Verif.Props.Tools
import Verif.Props.Tower
import Verif.Props.TowerFloat
import Verif.Props.TowerIntex
import Verif.Props.TriAngles
import Verif.Props.TriRel
import Verif.Props.Triangle
import Verif.Props.Triangulate
import Verif.Props.TriangulateEdges
import Verif.Props.TriangulateEx
import Verif.Props.TriangulateFlat
import Verif.Props.Winding
import Verif.Spec.Arc
import Verif.Spec.Area
import Verif.Spec.Bands
import Verif.Spec.Circle
import Verif.Spec.Collinear
import Verif.Spec.Convex
import Verif.Spec.Ear
import Verif.Spec.Example
import Verif.Spec.Fillet
import Verif.Spec.Geom
import Verif.Spec.Head
import Verif.Spec.Hull
import Verif.Spec.Margin
import Verif.Spec.Mesh
import Verif.Spec.Raum
import Verif.Spec.Ray
import Verif.Spec.Region
import Verif.Spec.Split
import Verif.Spec.Tiling
import Verif.Spec.Tower
import Verif.Spec.TriRel
