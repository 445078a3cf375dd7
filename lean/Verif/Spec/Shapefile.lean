import Verif.Model.Shapefile
import Verif.Spec.Dbf
import Verif.Spec.Shp
/-!
# Specification: shapefiles, i.e. pairs of a .shp and a .dbf file
-/

namespace TopoGeo.Spec

/-- What is yielded when the two files yield the given items. -/
inductive Joined : Option (Except ShpError ShpPolygonRecord) → Option (Except DbfError DbfRecord) →
    Option (Except ShapefileError ShapefileRecord) → Prop where
  | finished : Joined none none none
  | moreShapes (a) : Joined (some a) none (some (.error .shpHasMore))
  | moreData (b) : Joined none (some b) (some (.error .dbfHasMore))
  | shapeError (e b) : Joined (some (.error e)) (some b) (some (.error (.shp e)))
  | dataError (shape e) : Joined (some (.ok shape)) (some (.error e)) (some (.error (.dbf e)))
  | record (number rings data) : Joined (some (.ok ⟨number, rings⟩)) (some (.ok data)) (some (.ok ⟨rings, data⟩))

end TopoGeo.Spec
