import Verif.Model.AABB
import Verif.Model.Arrangement2D
import Verif.Model.Buffer
import Verif.Model.Canned
import Verif.Model.CellMerger
import Verif.Model.FacetPlanes
import Verif.Model.Facets
import Verif.Model.Fingers
import Verif.Model.Frangle
import Verif.Model.Geom1D
import Verif.Model.Geom2D
import Verif.Model.Heuristics
import Verif.Model.Main
import Verif.Model.PMap
import Verif.Model.PlyTypes
import Verif.Model.Primitive2D
import Verif.Model.Py
import Verif.Model.QuadTree
import Verif.Model.RaySlow
import Verif.Model.Scan2D
import Verif.Model.SegmentTree
import Verif.Model.Shapes
import Verif.Model.SheetBuild
import Verif.Model.SheetPlex
import Verif.Model.Space
import Verif.Model.Text
import Verif.Model.Types2D
import Verif.Spec.Arrangement
import Verif.Spec.Box
import Verif.Spec.Cells
import Verif.Spec.ConvexRing
import Verif.Spec.Fingers
import Verif.Spec.Minkowski
import Verif.Spec.Plane
import Verif.Spec.PointSet1D
import Verif.Spec.RealPlane
import Verif.Spec.Region
import Verif.Spec.Shape
import Verif.Spec.Space
import Verif.Spec.StarRing
import Verif.Spec.Sweep
import Verif.Spec.Tiles
import Verif.Spec.Touch
import Verif.Proofs.AABB
import Verif.Proofs.Angle
import Verif.Proofs.Area
import Verif.Proofs.Around
import Verif.Proofs.ArrCells
import Verif.Proofs.ArrNet
import Verif.Proofs.ArrOp
import Verif.Proofs.ArrOutline
import Verif.Proofs.ArrPoints
import Verif.Proofs.ArrProper
import Verif.Proofs.ArrSound
import Verif.Proofs.Bulge
import Verif.Proofs.CellMerger
import Verif.Proofs.Chain
import Verif.Proofs.Contract
import Verif.Proofs.Convex
import Verif.Proofs.Corner
import Verif.Proofs.Cuts
import Verif.Proofs.Faces
import Verif.Proofs.Fan
import Verif.Proofs.FindVertex
import Verif.Proofs.Frangle
import Verif.Proofs.Geom1D
import Verif.Proofs.Geom1DBase
import Verif.Proofs.Geom2D
import Verif.Proofs.GrownBox
import Verif.Proofs.GrownNet
import Verif.Proofs.GrownRibbon
import Verif.Proofs.Joined
import Verif.Proofs.Jump
import Verif.Proofs.MergeActive
import Verif.Proofs.MergeDiscs
import Verif.Proofs.MergeLoops
import Verif.Proofs.MergerFaces
import Verif.Proofs.MinMax
import Verif.Proofs.Minkowski
import Verif.Proofs.Nest
import Verif.Proofs.Octagon
import Verif.Proofs.Outline
import Verif.Proofs.PMap
import Verif.Proofs.Perturb
import Verif.Proofs.PlateCompose
import Verif.Proofs.PlateFuse
import Verif.Proofs.PlateNet
import Verif.Proofs.PlateTree
import Verif.Proofs.Primitive2D
import Verif.Proofs.QuadTree
import Verif.Proofs.Ribbon
import Verif.Proofs.RibbonLoop
import Verif.Proofs.RingArea
import Verif.Proofs.RingForest
import Verif.Proofs.RingGlue
import Verif.Proofs.RingMerge
import Verif.Proofs.RingNet
import Verif.Proofs.RingSeam
import Verif.Proofs.Scan2DBase
import Verif.Proofs.Scan2DLoop
import Verif.Proofs.Scan2DOrder
import Verif.Proofs.Scan2DQueue
import Verif.Proofs.Scan2DReach
import Verif.Proofs.Scan2DStep
import Verif.Proofs.Scan2DSweep
import Verif.Proofs.SegmentTree
import Verif.Proofs.Separate
import Verif.Proofs.Shapes
import Verif.Proofs.SheetBuild
import Verif.Proofs.SimpleRing
import Verif.Proofs.Simplify
import Verif.Proofs.Space
import Verif.Proofs.StarPair
import Verif.Proofs.TileNet
import Verif.Proofs.TotalBuild
import Verif.Proofs.TotalCells
import Verif.Proofs.TotalContain
import Verif.Proofs.TotalDiscs
import Verif.Proofs.TotalFace
import Verif.Proofs.TotalFan
import Verif.Proofs.TotalFork
import Verif.Proofs.TotalGroups
import Verif.Proofs.TotalLoops
import Verif.Proofs.TotalMerge
import Verif.Proofs.TotalNest
import Verif.Proofs.TotalOp
import Verif.Proofs.TotalPoly
import Verif.Proofs.TotalQuery
import Verif.Proofs.TotalRays
import Verif.Proofs.TotalRings
import Verif.Proofs.Touch
import Verif.Proofs.Triangle
import Verif.Proofs.WindingAffine
import Verif.Props.AABB
import Verif.Props.Area2D
import Verif.Props.Arrangement2D
import Verif.Props.BoxBuild
import Verif.Props.BoxUnion
import Verif.Props.Buffer
import Verif.Props.Buffer2D
import Verif.Props.BufferBox
import Verif.Props.BufferDist
import Verif.Props.BufferExact
import Verif.Props.BufferExample
import Verif.Props.Build2D
import Verif.Props.BuildTotal
import Verif.Props.Canned
import Verif.Props.Canonical
import Verif.Props.CellMerger
import Verif.Props.Check
import Verif.Props.CleanUp
import Verif.Props.Clusters
import Verif.Props.Collision
import Verif.Props.CollisionExample
import Verif.Props.ConvexCommon
import Verif.Props.ConvexFinger
import Verif.Props.ConvexRing
import Verif.Props.ConvexUnion
import Verif.Props.Corners
import Verif.Props.CreateBuild
import Verif.Props.Exact2D
import Verif.Props.Extent
import Verif.Props.FacetPlanes
import Verif.Props.Facets
import Verif.Props.Filled
import Verif.Props.FilledExample
import Verif.Props.Fine
import Verif.Props.FingerArea
import Verif.Props.Fingers
import Verif.Props.Fit
import Verif.Props.Frangle
import Verif.Props.FullRun
import Verif.Props.FullRunBuffer
import Verif.Props.FullRunList
import Verif.Props.Geom1D
import Verif.Props.Geom2D
import Verif.Props.Lawful2D
import Verif.Props.Laws
import Verif.Props.Main
import Verif.Props.MainExample
import Verif.Props.MakeFingers
import Verif.Props.Maps
import Verif.Props.Mono
import Verif.Props.OkSide
import Verif.Props.Overlap
import Verif.Props.PlateChain
import Verif.Props.Pointwise
import Verif.Props.Primitive2D
import Verif.Props.QuadTree
import Verif.Props.RayQuery
import Verif.Props.Rings
import Verif.Props.Rounding
import Verif.Props.RoundingExample
import Verif.Props.Run
import Verif.Props.RunExample
import Verif.Props.Scan2D
import Verif.Props.SegmentTree
import Verif.Props.SetOrder
import Verif.Props.SetOrderExample
import Verif.Props.Shapes
import Verif.Props.ShapesExample
import Verif.Props.SheetBuild
import Verif.Props.SheetBuildAccept
import Verif.Props.SheetPlex
import Verif.Props.Sheets
import Verif.Props.SheetsBuild
import Verif.Props.SingleFingers
import Verif.Props.Space
import Verif.Props.StarClosed
import Verif.Props.StarUnion
import Verif.Props.Steps
import Verif.Props.Text
import Verif.Props.Tiles
import Verif.Props.Total
import Verif.Props.TouchChain
import Verif.Props.TouchPlates
import Verif.Props.TouchRings
import Verif.Props.Trace
import Verif.Props.Writer
