import Verif.Model.Scalar
import Verif.Model.Euclid
import Verif.Model.Graph
import Verif.Model.HeapQ
import Verif.Model.Lav
import Verif.Model.Skel
import Verif.Model.Polygonize
import Verif.Model.Demo
import Verif.Spec.Soft
import Verif.Spec.Runtime
import Verif.Spec.Exact
import Verif.Spec.Geometry
import Verif.Proofs.Except
import Verif.Props.Geometry
import Verif.Props.Circle
import Verif.Proofs.Heap
import Verif.Props.Basic
import Verif.Props.Crossing
import Verif.Props.Queue
import Verif.Spec.Samples
import Verif.Spec.Planar
import Verif.Proofs.Graph
import Verif.Props.Graph
import Verif.Proofs.ListIdx
import Verif.Props.Spikes
import Verif.Props.SpikeSteps
import Verif.Props.Cleanup
import Verif.Props.Poly
import Verif.Proofs.Congr
import Verif.Props.Moves
import Verif.Props.Closed
import Verif.Props.Clusters
import Verif.Props.Merge
import Verif.Props.Ghosts
import Verif.Props.Apses
import Verif.Props.Dormers
import Verif.Spec.Wavefront
import Verif.Proofs.Run
import Verif.Proofs.Rings
import Verif.Proofs.Fields
import Verif.Props.Wavefront
import Verif.Props.NextEvent
import Verif.Props.Equidistant
import Verif.Spec.SoftExact
import Verif.Proofs.Events
import Verif.Props.Skeleton
import Verif.Props.Heights
import Verif.Props.FirstEdge
import Verif.Props.FirstEdgeRefuted
import Verif.Props.DormerRefuted
import Verif.Props.NodeHeights
import Verif.Spec.Moments
import Verif.Proofs.Loops
import Verif.Proofs.EdgeStep
import Verif.Proofs.Strays
import Verif.Proofs.SplitStep
import Verif.Proofs.SplitWave
import Verif.Proofs.SplitFail
import Verif.Proofs.DormerStep
import Verif.Proofs.Initial
import Verif.Proofs.Moments
import Verif.Props.ClosedLoops
import Verif.Proofs.Potential
import Verif.Proofs.Termination
import Verif.Props.Termination
import Verif.Proofs.Shared
import Verif.Props.SharedEdges
import Verif.Spec.Convex
import Verif.Proofs.LoopInv
import Verif.Proofs.ConvexWave
import Verif.Proofs.ConvexRun
import Verif.Proofs.ConvexPolygon
import Verif.Props.Convex
import Verif.Proofs.Single
import Verif.Props.Rotation
import Verif.Props.DormerEvents
import Verif.Proofs.Tally
import Verif.Proofs.Euler
import Verif.Proofs.Gone
import Verif.Props.SkeletonGraph
import Verif.Props.AptRefuted
import Verif.Props.Edges
import Verif.Props.Unfinished
import Verif.Spec.Roof
import Verif.Proofs.Sweep
import Verif.Proofs.Front
import Verif.Proofs.RoofTree
import Verif.Proofs.SweepRun
import Verif.Proofs.SweepStart
import Verif.Props.ConvexSkeleton
import Verif.Proofs.Cyclic
import Verif.Proofs.RoofGraph
import Verif.Proofs.RoofFaces
import Verif.Proofs.RoofWalk
import Verif.Proofs.RoofOut
import Verif.Proofs.RoofFinish
import Verif.Spec.RoofFace
import Verif.Props.Bound
import Verif.Proofs.RoofNodes
import Verif.Proofs.RoofHigh
import Verif.Proofs.Spokes
import Verif.Proofs.RoofBin
import Verif.Proofs.RoofContract
import Verif.Proofs.RoofMerge
import Verif.Proofs.RoofPoly
import Verif.Proofs.RoofCore
import Verif.Proofs.RoofPoints
import Verif.Proofs.RoofOne
import Verif.Props.ConvexFaces
import Verif.Props.SpikeConvex
import Verif.Props.Straight
import Verif.Proofs.AreaSum
import Verif.Props.Area
import Verif.Props.ConvexDistance
import Verif.Proofs.RoofUnique
import Verif.Props.ConvexUnique
import Verif.Proofs.RoofCell
import Verif.Props.RoofCells
import Verif.Props.Pyramid
import Verif.Props.HipRoof
import Verif.Props.Similar
import Verif.Spec.Planes
import Verif.Proofs.Planes
import Verif.Props.Planes
import Verif.Spec.NewEvents
import Verif.Proofs.NewEvents
import Verif.Props.NewEvents
import Verif.Props.NewEventsHole
import Verif.Props.NewEventsDormer
import Verif.Props.Endless
import Verif.Props.SkeletonConvex
import Verif.Spec.Mesh
import Verif.Proofs.Building
import Verif.Props.Building
import Verif.Props.Slider
import Verif.Proofs.Pitch
import Verif.Props.Pitch
import Verif.Proofs.Safe
import Verif.Proofs.SafeStart
import Verif.Proofs.SafeFaces
import Verif.Props.Raises
import Verif.Props.RaisesWitness
import Verif.Props.RaisesHole
import Verif.Props.RaisesStop
import Verif.Props.RaisesDormer
import Verif.Spec.RunOff
import Verif.Proofs.RunOff
import Verif.Props.RunOff
import Verif.Spec.RoofSurface
import Verif.Proofs.RoofSurface
import Verif.Props.RoofSurface
import Verif.Spec.Inscribed
import Verif.Proofs.Inscribed
import Verif.Props.Inscribed
import Verif.Props.RoofShape
import Verif.Proofs.RoofStable
import Verif.Props.RoofStable
import Verif.Proofs.RoofCount
import Verif.Spec.Euler
import Verif.Props.Euler
import Verif.Model.Line
import Verif.Props.Line
import Verif.Props.ConvexRidges
import Verif.Props.Parallelogram
import Verif.Props.RaisesAttribute
import Verif.Props.Quadrilateral
import Verif.Props.Ears
import Verif.Model.Show
import Verif.Props.Show
import Verif.Props.Incidence
import Verif.Props.FacePairs
import Verif.Props.Climb
import Verif.Props.Runtimes
import Verif.Props.Uncrossed
import Verif.Props.CrossingRefuted
import Verif.Props.RuntimeFaces
