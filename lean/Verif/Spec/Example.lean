import Verif.Model.Example
import Verif.Spec.ReadGeo
import Verif.Spec.Shapefile
import Verif.Spec.Topology
/-!
# Specification: the example programs
-/

namespace TopoGeo.Spec

/-- The region of a record: the same data, and its rings on the grid, split by
their winding. -/
structure IsRegionOf (m : Build) (q : ShapefileQuantizer) (record : ShapefileRecord) (region : Region DbfRecord) : Prop where
  data : region.data = record.data
  rings : Split (CountsAsOuter m) (record.rings.map fun s => Ring.points (s.map q.quantize)) region.outerRings region.innerRings

/-- A ring on the grid. -/
def onGrid (q : ShapefileQuantizer) (s : ShpPolygonRing) : Ring := .points (s.map q.quantize)

/-- A ring of a record which is still a ring on the grid, in a record that still
has an outer ring there. -/
def Survives (m : Build) (q : ShapefileQuantizer) (record : ShapefileRecord) (s : ShpPolygonRing) : Prop :=
  s ∈ record.rings ∧ ringArea (onGrid q s) ≠ 0 ∧
    ∃ o ∈ record.rings, CountsAsOuter m (onGrid q o) ∧ ringArea (onGrid q o) ≠ 0

/-- `p` and `q` are consecutive. -/
def Consecutive {α : Type} (l : List α) (p q : α) : Prop := ∃ before after, l = before ++ p :: q :: after

end TopoGeo.Spec
