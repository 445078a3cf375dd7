import Verif.DocTests
import Verif.Model.Basic
import Verif.Model.Clip
import Verif.Model.Dbf
import Verif.Model.Display
import Verif.Model.Encodings
import Verif.Model.Example
import Verif.Model.F64
import Verif.Model.Geo
import Verif.Model.Io
import Verif.Model.Library
import Verif.Model.Memory
import Verif.Model.MemoryOps
import Verif.Model.MemorySimplify
import Verif.Model.Normalize
import Verif.Model.Open
import Verif.Model.OperationsTime
import Verif.Model.Program
import Verif.Model.ReadGeo
import Verif.Model.ReadTime
import Verif.Model.Reads
import Verif.Model.Shapefile
import Verif.Model.Shp
import Verif.Model.Simplify
import Verif.Model.SimplifyTime
import Verif.Model.Topology
import Verif.Model.Word
import Verif.Proofs.Area
import Verif.Proofs.AreaRings
import Verif.Proofs.Basic
import Verif.Proofs.Budget
import Verif.Proofs.BuildRounds
import Verif.Proofs.BuildSafe
import Verif.Proofs.Canonical
import Verif.Proofs.Checked
import Verif.Proofs.Clip
import Verif.Proofs.ClipArea
import Verif.Proofs.ClipCover
import Verif.Proofs.ClipHalves
import Verif.Proofs.ClipNormalize
import Verif.Proofs.ClipRect
import Verif.Proofs.ClipRounds
import Verif.Proofs.ClipSafe
import Verif.Proofs.ClipSafeCover
import Verif.Proofs.ClipSquare
import Verif.Proofs.ClipTopology
import Verif.Proofs.ClipTwins
import Verif.Proofs.ClipWinding
import Verif.Proofs.Cover
import Verif.Proofs.Dbf
import Verif.Proofs.Delivery
import Verif.Proofs.DeliveryPrograms
import Verif.Proofs.DeliveryReaders
import Verif.Proofs.DeliveryRuns
import Verif.Proofs.Display
import Verif.Proofs.DrawnNormalized
import Verif.Proofs.Encodings
import Verif.Proofs.EvenOdd
import Verif.Proofs.F64
import Verif.Proofs.F64Round
import Verif.Proofs.Geo
import Verif.Proofs.Io
import Verif.Proofs.Library
import Verif.Proofs.LibraryInstances
import Verif.Proofs.Local
import Verif.Proofs.LocalNormalize
import Verif.Proofs.Memory
import Verif.Proofs.MemoryOps
import Verif.Proofs.MemorySimplify
import Verif.Proofs.Merge
import Verif.Proofs.MergeStarts
import Verif.Proofs.MovedClip
import Verif.Proofs.MovedMap
import Verif.Proofs.MovedNormalize
import Verif.Proofs.NoOverflow
import Verif.Proofs.NoOverflowClip
import Verif.Proofs.Normalize
import Verif.Proofs.NormalizeClean
import Verif.Proofs.NormalizeMany
import Verif.Proofs.NormalizeOnce
import Verif.Proofs.NormalizeRounds
import Verif.Proofs.NormalizeShared
import Verif.Proofs.NormalizeTwice
import Verif.Proofs.OperationsTime
import Verif.Proofs.Order
import Verif.Proofs.OrderClip
import Verif.Proofs.OrderNormalize
import Verif.Proofs.Outline
import Verif.Proofs.Parts
import Verif.Proofs.Program
import Verif.Proofs.QuantizedArea
import Verif.Proofs.ReadGeo
import Verif.Proofs.ReadProgramRounds
import Verif.Proofs.ReadRounds
import Verif.Proofs.ReadTime
import Verif.Proofs.RealArea
import Verif.Proofs.RealPlane
import Verif.Proofs.Runs
import Verif.Proofs.SameMap
import Verif.Proofs.Shp
import Verif.Proofs.Simplify
import Verif.Proofs.SimplifyHeap
import Verif.Proofs.SimplifyMoved
import Verif.Proofs.SimplifyRun
import Verif.Proofs.SimplifyTime
import Verif.Proofs.Sizes
import Verif.Proofs.Straighten
import Verif.Proofs.Symmetry
import Verif.Proofs.SymmetryBuild
import Verif.Proofs.SymmetryClip
import Verif.Proofs.Topology
import Verif.Proofs.Triangle
import Verif.Proofs.Word
import Verif.Proofs.Wound
import Verif.Props.Area
import Verif.Props.AxisMap
import Verif.Props.Budget
import Verif.Props.BuildCover
import Verif.Props.BuildSafe
import Verif.Props.Canonical
import Verif.Props.Checked
import Verif.Props.Clip
import Verif.Props.ClipArea
import Verif.Props.ClipCover
import Verif.Props.ClipHalves
import Verif.Props.ClipNormalize
import Verif.Props.ClipRect
import Verif.Props.ClipRectangle
import Verif.Props.ClipSafe
import Verif.Props.ClipSquare
import Verif.Props.ClipTopology
import Verif.Props.ClipTwins
import Verif.Props.ClipWinding
import Verif.Props.Cover
import Verif.Props.Dbf
import Verif.Props.Delivery
import Verif.Props.Display
import Verif.Props.Encodings
import Verif.Props.EvenOdd
import Verif.Props.Exact
import Verif.Props.ExactMap
import Verif.Props.Example
import Verif.Props.F64
import Verif.Props.Geo
import Verif.Props.GridFile
import Verif.Props.Heap
import Verif.Props.LeastRounds
import Verif.Props.Library
import Verif.Props.Memory
import Verif.Props.MemoryOps
import Verif.Props.MemorySimplify
import Verif.Props.Merge
import Verif.Props.MovedMap
import Verif.Props.NoOverflow
import Verif.Props.Normalize
import Verif.Props.NormalizeMany
import Verif.Props.NormalizeShared
import Verif.Props.NormalizeTwice
import Verif.Props.Open
import Verif.Props.Order
import Verif.Props.Outline
import Verif.Props.Parts
import Verif.Props.Pipeline
import Verif.Props.Program
import Verif.Props.Quantize
import Verif.Props.QuantizedArea
import Verif.Props.ReadGeo
import Verif.Props.ReadSide
import Verif.Props.ReadTime
import Verif.Props.RealPlane
import Verif.Props.Rebuild
import Verif.Props.Rounds
import Verif.Props.Shapefile
import Verif.Props.Shp
import Verif.Props.SimpleArea
import Verif.Props.Simplify
import Verif.Props.SimplifyError
import Verif.Props.SimplifyRun
import Verif.Props.SimplifyTime
import Verif.Props.SimplifyTopology
import Verif.Props.Sizes
import Verif.Props.StaysWithin
import Verif.Props.Straighten
import Verif.Props.Symmetry
import Verif.Props.Topology
import Verif.Props.Units
import Verif.Props.Whole
import Verif.Props.Word
import Verif.Props.Wound
import Verif.Spec.Area
import Verif.Spec.Budget
import Verif.Spec.BuildCover
import Verif.Spec.BuildSafe
import Verif.Spec.Canonical
import Verif.Spec.Checked
import Verif.Spec.Clip
import Verif.Spec.ClipArea
import Verif.Spec.ClipCover
import Verif.Spec.ClipHalves
import Verif.Spec.ClipNormalize
import Verif.Spec.ClipSafe
import Verif.Spec.ClipSquare
import Verif.Spec.ClipTopology
import Verif.Spec.ClipTwins
import Verif.Spec.ClipWinding
import Verif.Spec.Cover
import Verif.Spec.Dbf
import Verif.Spec.Delivery
import Verif.Spec.Display
import Verif.Spec.Encodings
import Verif.Spec.EvenOdd
import Verif.Spec.ExactMap
import Verif.Spec.Example
import Verif.Spec.F64
import Verif.Spec.Geo
import Verif.Spec.GridFile
import Verif.Spec.Heap
import Verif.Spec.LeastRounds
import Verif.Spec.Library
import Verif.Spec.Memory
import Verif.Spec.MemoryOps
import Verif.Spec.MemorySimplify
import Verif.Spec.Merge
import Verif.Spec.MovedMap
import Verif.Spec.NoOverflow
import Verif.Spec.Normalize
import Verif.Spec.NormalizeMany
import Verif.Spec.NormalizeTwice
import Verif.Spec.Order
import Verif.Spec.Outline
import Verif.Spec.Parts
import Verif.Spec.Pipeline
import Verif.Spec.Program
import Verif.Spec.Quantize
import Verif.Spec.QuantizedArea
import Verif.Spec.ReadGeo
import Verif.Spec.ReadRounds
import Verif.Spec.ReadSide
import Verif.Spec.RealPlane
import Verif.Spec.Retag
import Verif.Spec.Rounds
import Verif.Spec.Shapefile
import Verif.Spec.Shp
import Verif.Spec.SimpleArea
import Verif.Spec.Simplify
import Verif.Spec.SimplifyError
import Verif.Spec.SimplifyRun
import Verif.Spec.Sizes
import Verif.Spec.StaysWithin
import Verif.Spec.Straighten
import Verif.Spec.Symmetry
import Verif.Spec.Topology
import Verif.Spec.Units
import Verif.Spec.Word
import Verif.Spec.Wound
import Verif.UnitTests
