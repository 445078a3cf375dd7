import Verif.Proofs.Checked
import Verif.Props.Example
/-!
# C106: a build with overflow checks does what one without does, or stops at an overflow
-/

namespace TopoGeo
open Spec

/-- C106: areas and winding orders of rings. -/
theorem C106_ring (r : Ring) :
    StopsOrSame (r.area2AndWindingOrder .debug) (r.area2AndWindingOrder .release) ∧
    StopsOrSame (r.area2 .debug) (r.area2 .release) ∧
    StopsOrSame (r.windingOrder .debug) (r.windingOrder .release) :=
  ⟨ringArea2_checked r, .bind (ringArea2_checked r) fun _ => .refl _, ringWindingOrder_checked r⟩

/-- C106: building a topology. -/
theorem C106_build {δ : Type} (b : TopologyBuilder δ) (r : Region δ) (rs : List (Region δ)) :
    StopsOrSame (b.addRegion .debug r) (b.addRegion .release r) ∧
    StopsOrSame (buildTopology .debug rs) (buildTopology .release rs) :=
  ⟨addRegion_checked b r, .bind (addRegions_checked _ _) fun _ => .refl _⟩

/-- C106: normalizing. -/
theorem C106_normalize {δ : Type} (t : Topology δ) : StopsOrSame (normalize .debug t) (normalize .release t) :=
  normalize_checked t

/-- C106: clipping. -/
theorem C106_clip {δ : Type} (t : Topology δ) (mask : ClipMask) (p q : Point) (edge : List Point) :
    StopsOrSame (clipTopology .debug t mask) (clipTopology .release t mask) ∧
    StopsOrSame (clipEdge .debug mask edge) (clipEdge .release mask edge) ∧
    StopsOrSame (mask.intersect .debug p q) (mask.intersect .release p q) :=
  ⟨clipTopology_checked t mask, clipEdge_checked mask edge, intersect_checked mask p q⟩

/-- C106: simplifying. -/
theorem C106_simplify {δ : Type} (t : Topology δ) (edge : List Point) (smallest : Nat) :
    StopsOrSame (simplify .debug t smallest) (simplify .release t smallest) ∧
    StopsOrSame (simplifyEdge .debug edge smallest) (simplifyEdge .release edge smallest) :=
  ⟨simplify_checked t smallest, simplifyEdge_checked edge smallest⟩

/-- C106: opening files, from any source. -/
theorem C106_open {σ τ : Type} [Source σ] [Source τ] (f : σ) (g : τ) (labels : Text → Option Encoding) (fs : FileSystem σ)
    (path : Path) (enc : Encoding) :
    StopsOrSame (ShpReader.new .debug f) (ShpReader.new .release f) ∧
    StopsOrSame (DbfReader.new .debug g enc) (DbfReader.new .release g enc) ∧
    StopsOrSame (ShapefileReader.new .debug f g enc) (ShapefileReader.new .release f g enc) ∧
    StopsOrSame (shpOpen .debug fs path) (shpOpen .release fs path) ∧
    StopsOrSame (dbfOpen .debug fs path enc) (dbfOpen .release fs path enc) ∧
    StopsOrSame (dbfOpenAscii .debug labels fs path) (dbfOpenAscii .release labels fs path) ∧
    StopsOrSame (shapefileOpen .debug fs path enc) (shapefileOpen .release fs path enc) :=
  ⟨shpNew_checked f, dbfNew_checked g enc, shapefileNew_checked f g enc, shpOpen_checked fs path, dbfOpen_checked fs path enc,
    dbfOpenAscii_checked labels fs path, shapefileOpen_checked fs path enc⟩

/-- C106: reading regions. -/
theorem C106_read {σ τ : Type} [Source σ] [Source τ] (it : ShapefileGeoIterator σ τ) :
    StopsOrSame (it.next .debug) (it.next .release) :=
  geoNext_checked it

/-- C106: the programs. One that stops at an overflow has printed a part of what it
prints without the checks. -/
theorem C106_programs {σ : Type} [Source σ] (showF64 : UInt64 → Text) (debugError : DbfError → Text)
    (showIo : IoError → Text) (toPath : Text → Path) (fuel : Nat) (fs : FileSystem σ) (enc : Encoding)
    (args : List (Option Text)) :
    StopsOrSameRun (geoMain .debug showIo toPath fuel fs enc args) (geoMain .release showIo toPath fuel fs enc args) ∧
    StopsOrSameRun (catMain .debug showF64 debugError showIo toPath fuel fs enc args)
      (catMain .release showF64 debugError showIo toPath fuel fs enc args) :=
  ⟨geoMain_checked showIo toPath fuel fs enc args, catMain_checked showF64 debugError showIo toPath fuel fs enc args⟩

/-- C106: a result of a whole run with the checks is the result without. -/
theorem C106_result {δ : Type} (rs : List (Region δ)) (mask : ClipMask) (smallest : Nat) (t1 t2 t3 t4 : Topology δ)
    (h1 : buildTopology .debug rs = .ok t1) (h2 : normalize .debug t1 = .ok t2) (h3 : clipTopology .debug t2 mask = .ok t3)
    (h4 : simplify .debug t3 smallest = .ok t4) :
    buildTopology .release rs = .ok t1 ∧ normalize .release t1 = .ok t2 ∧ clipTopology .release t2 mask = .ok t3 ∧
    simplify .release t3 smallest = .ok t4 := by
  have key : ∀ {x y : R (Topology δ)} {t : Topology δ}, StopsOrSame x y → x = .ok t → y = .ok t := by
    rintro x y t (h | rfl) hx
    · rw [h] at hx
      exact nomatch hx
    · exact hx
  exact ⟨key (.bind (addRegions_checked _ _) fun _ => .refl _) h1, key (C106_normalize t1) h2, key (clipTopology_checked t2 mask) h3,
    key (simplify_checked t3 smallest) h4⟩

/-- The largest square: stops with the checks; without them it has the wrong area
and the wrong winding order. -/
example :
    (Ring.points [⟨0, 0⟩, ⟨4294967295, 0⟩, ⟨4294967295, 4294967295⟩, ⟨0, 4294967295⟩, ⟨0, 0⟩]).area2AndWindingOrder .debug =
      .error .overflow ∧
    ((Ring.points [⟨0, 0⟩, ⟨4294967295, 0⟩, ⟨4294967295, 4294967295⟩, ⟨0, 4294967295⟩, ⟨0, 0⟩]).area2AndWindingOrder
      .release).toOption.map (·.1) = some 17179869182 ∧
    (Ring.points [⟨0, 0⟩, ⟨9, 0⟩, ⟨9, 9⟩, ⟨0, 9⟩, ⟨0, 0⟩]).windingOrder .debug =
      (Ring.points [⟨0, 0⟩, ⟨9, 0⟩, ⟨9, 9⟩, ⟨0, 9⟩, ⟨0, 0⟩]).windingOrder .release ∧
    (Ring.points [⟨0, 0⟩, ⟨4294967295, 0⟩, ⟨4294967295, 4294967295⟩, ⟨0, 4294967295⟩, ⟨0, 0⟩]).windingOrder .release ≠
      (Ring.points [⟨0, 0⟩, ⟨9, 0⟩, ⟨9, 9⟩, ⟨0, 9⟩, ⟨0, 0⟩]).windingOrder .release := by
  decide +kernel

/-- A whole run that has a result with the checks. -/
example : ∃ t1 t2 t3 t4 : Topology Nat,
    buildTopology .debug [⟨1, [.points [⟨0, 0⟩, ⟨9, 0⟩, ⟨9, 9⟩, ⟨0, 9⟩, ⟨0, 0⟩]], []⟩] = .ok t1 ∧ normalize .debug t1 = .ok t2 ∧
    clipTopology .debug t2 (.minX 4) = .ok t3 ∧ simplify .debug t3 1 = .ok t4 ∧ t4.regions.length = 1 := by
  have h : (show R (Topology Nat) from do
    let t1 ← buildTopology .debug [(⟨1, [.points [⟨0, 0⟩, ⟨9, 0⟩, ⟨9, 9⟩, ⟨0, 9⟩, ⟨0, 0⟩]], []⟩ : Region Nat)]
    let t2 ← normalize .debug t1
    let t3 ← clipTopology .debug t2 (.minX 4)
    simplify .debug t3 1).toOption.map (fun t => t.regions.length) = some 1 := by decide +kernel
  cases h1 : buildTopology .debug [(⟨1, [.points [⟨0, 0⟩, ⟨9, 0⟩, ⟨9, 9⟩, ⟨0, 9⟩, ⟨0, 0⟩]], []⟩ : Region Nat)] with
  | error e => rw [h1] at h; exact nomatch h
  | ok t1 =>
    rw [h1, ok_bind] at h
    cases h2 : normalize .debug t1 with
    | error e => rw [h2] at h; exact nomatch h
    | ok t2 =>
      rw [h2, ok_bind] at h
      cases h3 : clipTopology .debug t2 (.minX 4) with
      | error e => rw [h3] at h; exact nomatch h
      | ok t3 =>
        rw [h3, ok_bind] at h
        cases h4 : simplify .debug t3 1 with
        | error e => rw [h4] at h; exact nomatch h
        | ok t4 =>
          rw [h4] at h
          exact ⟨t1, t2, t3, t4, rfl, h2, h3, h4, by simpa [Except.toOption] using h⟩

/-- A file whose header length is 0: with the checks, the reader stops at an overflow;
without them, at an allocation that is too large. -/
example : ((DbfReader.new .debug (⟨List.replicate 32 0⟩ : MemFile) Encoding.ascii).map fun _ => ()) = .error .overflow ∧
    ((DbfReader.new .release (⟨List.replicate 32 0⟩ : MemFile) Encoding.ascii).map fun _ => ()) = .error .capacity := by
  decide +kernel

end TopoGeo
