import Verif.Model.MemorySimplify
import Verif.Spec.Memory
/-!
# Where the points of the simplifier are
-/

namespace TopoGeo.Spec

/-- What any allocator provides: blocks are not at the null pointer, and points have a
size. -/
structure RealPlace (place : PointsPlace) : Prop where
  address : place.address ≠ 0
  size : 0 < place.size

/-- The points of a `PointHeap` moved to another address, with the pointers as they
were. -/
def moveTo (h : MPointHeap) (address : Nat) : MPointHeap := { h with points := { h.points with address := address } }

end TopoGeo.Spec
