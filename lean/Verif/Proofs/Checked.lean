import Verif.Spec.Checked
import Verif.Proofs.Basic
/-!
# Comparing runs with and without overflow checks
-/

namespace TopoGeo
namespace Spec.StopsOrSame

theorem refl {α : Type} (x : R α) : StopsOrSame x x := .inr rfl

theorem bind {α β : Type} {x y : R α} {f g : α → R β} (h : StopsOrSame x y) (hf : ∀ a, StopsOrSame (f a) (g a)) :
    StopsOrSame (x >>= f) (y >>= g) := by
  rcases h with rfl | rfl
  · exact .inl rfl
  · cases x with
    | error e => exact .inr rfl
    | ok a => exact hf a

theorem i64 (z : Int) : StopsOrSame (Build.debug.i64 z) (Build.release.i64 z) := by
  unfold Build.i64
  split
  · exact refl _
  · exact .inl rfl

theorem u32 (z : Nat) : StopsOrSame (Build.debug.u32 z) (Build.release.u32 z) := by
  unfold Build.u32
  split
  · exact refl _
  · exact .inl rfl

end Spec.StopsOrSame
open Spec

theorem shoelaceTerm_checked (p q : Point) : StopsOrSame (shoelaceTerm .debug p q) (shoelaceTerm .release p q) := by
  unfold shoelaceTerm
  exact .bind (.i64 _) fun _ => .bind (.i64 _) fun _ => .i64 _

theorem signedArea2Loop_checked (a : Int) (l : List (Point × Point)) :
    StopsOrSame (signedArea2Loop .debug a l) (signedArea2Loop .release a l) := by
  induction l generalizing a with
  | nil => exact .refl _
  | cons pq l ih => exact .bind (shoelaceTerm_checked _ _) fun _ => .bind (.i64 _) fun _ => ih _

theorem signedArea2_checked (ps : List Point) : StopsOrSame (signedArea2 .debug ps) (signedArea2 .release ps) :=
  signedArea2Loop_checked _ _

theorem splitSign_checked (a : Int) : StopsOrSame (splitSign .debug a) (splitSign .release a) := by
  unfold splitSign
  split
  · exact .refl _
  · exact .bind (.i64 _) fun _ => .refl _

theorem edgesAreaLoop_checked (a : Int) (l : List Edge) : StopsOrSame (edgesAreaLoop .debug a l) (edgesAreaLoop .release a l) := by
  induction l generalizing a with
  | nil => exact .refl _
  | cons e l ih => exact .bind (signedArea2_checked _) fun _ => .bind (.i64 _) fun _ => ih _

theorem ringArea2_checked (r : Ring) :
    StopsOrSame (r.area2AndWindingOrder .debug) (r.area2AndWindingOrder .release) := by
  cases r with
  | edges es => exact .bind (edgesAreaLoop_checked _ _) fun _ => splitSign_checked _
  | points ps => exact .bind (signedArea2_checked _) fun _ => splitSign_checked _

theorem ringWindingOrder_checked (r : Ring) : StopsOrSame (r.windingOrder .debug) (r.windingOrder .release) :=
  .bind (ringArea2_checked r) fun _ => .refl _

theorem canonicalize_checked (ps : List Point) : StopsOrSame (canonicalize .debug ps) (canonicalize .release ps) := by
  unfold canonicalize
  split
  · split
    · exact .refl _
    · split
      · exact .bind (ringWindingOrder_checked _) fun _ => .refl _
      · exact .refl _
  · exact .refl _

theorem buildDirectedEdge_checked (es : EdgeMap) (e : Edge) :
    StopsOrSame (buildDirectedEdge .debug es e) (buildDirectedEdge .release es e) := by
  unfold buildDirectedEdge
  split
  · exact .refl _
  · exact .bind (canonicalize_checked _) fun _ => .refl _

theorem buildDirectedEdges_checked (es : EdgeMap) (l : List Edge) :
    StopsOrSame (buildDirectedEdges .debug es l) (buildDirectedEdges .release es l) := by
  induction l generalizing es with
  | nil => exact .refl _
  | cons e l ih => exact .bind (buildDirectedEdge_checked _ _) fun _ => .bind (ih _) fun _ => .refl _

theorem buildRing_checked (es : EdgeMap) (r : Ring) : StopsOrSame (buildRing .debug es r) (buildRing .release es r) := by
  refine .bind (.bind (ringArea2_checked r) fun _ => .refl _) fun a => ?_
  split
  · exact .refl _
  · exact .bind (buildDirectedEdges_checked _ _) fun _ => .refl _

theorem buildRings_checked (es : EdgeMap) (l : List Ring) : StopsOrSame (buildRings .debug es l) (buildRings .release es l) := by
  induction l generalizing es with
  | nil => exact .refl _
  | cons e l ih => exact .bind (buildRing_checked _ _) fun _ => .bind (ih _) fun _ => .refl _

theorem addRegion_checked {δ : Type} (b : TopologyBuilder δ) (r : Region δ) :
    StopsOrSame (b.addRegion .debug r) (b.addRegion .release r) := by
  refine .bind (buildRings_checked _ _) fun a => ?_
  dsimp only
  split
  · exact .bind (buildRings_checked _ _) fun _ => .refl _
  · exact .refl _

theorem addRegions_checked {δ : Type} (b : TopologyBuilder δ) (l : List (Region δ)) :
    StopsOrSame (b.addRegions .debug l) (b.addRegions .release l) := by
  induction l generalizing b with
  | nil => exact .refl _
  | cons e l ih => exact .bind (addRegion_checked _ _) fun _ => ih _

theorem interpolate_checked (c a1 b1 a2 b2 : Int) :
    StopsOrSame (interpolate .debug c a1 b1 a2 b2) (interpolate .release c a1 b1 a2 b2) :=
  .bind (.i64 _) fun _ => .bind (.refl _) fun _ => .i64 _

theorem intersect_checked (mask : ClipMask) (p q : Point) :
    StopsOrSame (mask.intersect .debug p q) (mask.intersect .release p q) := by
  cases mask <;> exact .bind (interpolate_checked _ _ _ _ _) fun _ => .refl _

theorem clipEmit_checked (mask : ClipMask) (prev : Point) (loc : ClipLocation) (ret : List Point) (p : Point) :
    StopsOrSame (clipEmit .debug mask prev loc ret p) (clipEmit .release mask prev loc ret p) := by
  unfold clipEmit
  cases mask.test p with
  | onEdge => exact .refl _
  | inside =>
    dsimp only
    split
    · exact .bind (intersect_checked _ _ _) fun _ => .refl _
    · exact .refl _
  | outside =>
    dsimp only
    split
    · exact .bind (intersect_checked _ _ _) fun _ => .refl _
    · exact .refl _

theorem clipLoop_checked (mask : ClipMask) (prev : Point) (loc : ClipLocation) (ret l : List Point) :
    StopsOrSame (clipLoop .debug mask prev loc ret l) (clipLoop .release mask prev loc ret l) := by
  induction l generalizing prev loc ret with
  | nil => exact .refl _
  | cons e l ih => exact .bind (clipEmit_checked _ _ _ _ _) fun _ => ih _ _ _

theorem clipEdge_checked (mask : ClipMask) (l : List Point) :
    StopsOrSame (clipEdge .debug mask l) (clipEdge .release mask l) := by
  unfold clipEdge
  split
  · exact clipLoop_checked _ _ _ _ _
  · exact .refl _

theorem clipOldEdges_checked (mask : ClipMask) (c : List (List Point)) (f : List (Option Nat)) (l : List TopoEdge) :
    StopsOrSame (clipOldEdges .debug mask c f l) (clipOldEdges .release mask c f l) := by
  induction l generalizing c f with
  | nil => exact .refl _
  | cons e l ih =>
    refine .bind (clipEdge_checked _ _) fun _ => ?_
    split
    · exact ih _ _
    · exact ih _ _

theorem plug_checked (s : ClipRingState) (p q : Point) : StopsOrSame (s.plug .debug p q) (s.plug .release p q) :=
  .bind (signedArea2_checked _) fun _ => .bind (.i64 _) fun _ => .refl _

theorem clipRingStep_checked (b : ClipBuilder) (s : ClipRingState) (de : DirectedEdge) :
    StopsOrSame (clipRingStep .debug b s de) (clipRingStep .release b s de) := by
  refine .bind (.refl _) fun o => ?_
  cases o with
  | none => exact .refl _
  | some edgeId =>
    dsimp only
    cases b.oldEdges[edgeId]? with
    | none => exact .refl _
    | some oldEdge =>
      refine .bind (.refl _) fun first => ?_
      split
      · split
        · exact .bind (plug_checked _ _ _) fun _ => .bind (.refl _) fun _ => .bind (signedArea2_checked _) fun _ =>
            .bind (.i64 _) fun _ => .refl _
        · exact .bind (.refl _) fun _ => .bind (.refl _) fun _ => .bind (signedArea2_checked _) fun _ =>
            .bind (.i64 _) fun _ => .refl _
      · exact .bind (.refl _) fun _ => .bind (.refl _) fun _ => .bind (signedArea2_checked _) fun _ =>
          .bind (.i64 _) fun _ => .refl _

theorem clipRingLoop_checked (b : ClipBuilder) (s : ClipRingState) (l : List DirectedEdge) :
    StopsOrSame (clipRingLoop .debug b s l) (clipRingLoop .release b s l) := by
  induction l generalizing s with
  | nil => exact .refl _
  | cons e l ih => exact .bind (clipRingStep_checked _ _ _) fun _ => ih _

theorem clipRing_checked (b : ClipBuilder) (r : TopoRing) : StopsOrSame (clipRing .debug b r) (clipRing .release b r) := by
  refine .bind (clipRingLoop_checked _ _ _) fun s => ?_
  dsimp only
  split
  · split
    · exact .bind (plug_checked _ _ _) fun _ => .refl _
    · exact .refl _
  · exact .refl _

theorem clipRings_checked (b : ClipBuilder) (l : List TopoRing) : StopsOrSame (clipRings .debug b l) (clipRings .release b l) := by
  induction l generalizing b with
  | nil => exact .refl _
  | cons e l ih => exact .bind (clipRing_checked _ _) fun _ => .bind (ih _) fun _ => .refl _

theorem clipRegion_checked {δ : Type} (b : ClipBuilder) (r : TopoRegion δ) :
    StopsOrSame (clipRegion .debug b r) (clipRegion .release b r) := by
  refine .bind (clipRings_checked _ _) fun a => ?_
  dsimp only
  split
  · exact .bind (clipRings_checked _ _) fun _ => .refl _
  · exact .refl _

theorem clipRegions_checked {δ : Type} (b : ClipBuilder) (l : List (TopoRegion δ)) :
    StopsOrSame (clipRegions .debug b l) (clipRegions .release b l) := by
  induction l generalizing b with
  | nil => exact .refl _
  | cons e l ih => exact .bind (clipRegion_checked _ _) fun _ => .bind (ih _) fun _ => .refl _

theorem clipTopology_checked {δ : Type} (t : Topology δ) (mask : ClipMask) :
    StopsOrSame (clipTopology .debug t mask) (clipTopology .release t mask) :=
  .bind (.bind (clipOldEdges_checked _ _ _ _) fun _ => .refl _) fun _ => .bind (clipRegions_checked _ _) fun _ => .refl _

theorem normAreaLoop_checked (a : Int) (l : List NormEdge) : StopsOrSame (normAreaLoop .debug a l) (normAreaLoop .release a l) := by
  induction l generalizing a with
  | nil => exact .refl _
  | cons e l ih => exact .bind (signedArea2Loop_checked _ _) fun _ => ih _

theorem windEdges_checked (l : List NormEdge) (o : WindingOrder) : StopsOrSame (windEdges .debug l o) (windEdges .release l o) :=
  .bind (.bind (normAreaLoop_checked _ _) fun _ => .refl _) fun _ => .refl _

theorem normalizeRing_checked {δ : Type} (t : Topology δ) (o : WindingOrder) (r : TopoRing) :
    StopsOrSame (normalizeRing .debug t o r) (normalizeRing .release t o r) :=
  .bind (.refl _) fun _ => .bind (.refl _) fun _ => .bind (windEdges_checked _ _) fun _ => .refl _

theorem normalizeRings_checked {δ : Type} (t : Topology δ) (o : WindingOrder) (l : List TopoRing) :
    StopsOrSame (normalizeRings .debug t o l) (normalizeRings .release t o l) := by
  induction l with
  | nil => exact .refl _
  | cons e l ih => exact .bind (normalizeRing_checked _ _ _) fun _ => .bind ih fun _ => .refl _

theorem normalizeRegionRings_checked {δ : Type} (t : Topology δ) (l : List TopoRing) (o : WindingOrder) :
    StopsOrSame (normalizeRegionRings .debug t l o) (normalizeRegionRings .release t l o) :=
  .bind (.bind (normalizeRings_checked _ _ _) fun _ => .refl _) fun _ => .refl _

theorem normalizeLoop_checked {δ : Type} (t : Topology δ) (b : TopologyBuilder δ) (l : List (TopoRegion δ)) :
    StopsOrSame (normalizeLoop .debug t b l) (normalizeLoop .release t b l) := by
  induction l generalizing b with
  | nil => exact .refl _
  | cons e l ih =>
    exact .bind (.bind (normalizeRegionRings_checked _ _ _) fun _ => .bind (normalizeRegionRings_checked _ _ _) fun _ => .refl _)
      fun _ => .bind (addRegion_checked _ _) fun _ => ih _

theorem normalize_checked {δ : Type} (t : Topology δ) : StopsOrSame (normalize .debug t) (normalize .release t) :=
  .bind (normalizeLoop_checked _ _ _) fun _ => .refl _

theorem triWeight_checked (a b c : Point) : StopsOrSame (triWeight .debug a b c) (triWeight .release a b c) :=
  .bind (.i64 _) fun _ => .bind (.i64 _) fun _ => .bind (.i64 _) fun _ => .bind (.i64 _) fun _ => .bind (.i64 _) fun _ => .refl _

theorem initPoints_checked (i : Nat) (p : Point) (l : List Point) :
    StopsOrSame (initPoints .debug i p l) (initPoints .release i p l) := by
  induction l generalizing i p with
  | nil => exact .refl _
  | cons b l ih =>
    cases l with
    | nil => exact .refl _
    | cons c l => exact .bind (triWeight_checked _ _ _) fun _ => .bind (ih _ _) fun _ => .refl _

theorem pointHeapFrom_checked (l : List Point) : StopsOrSame (PointHeap.from .debug l) (PointHeap.from .release l) := by
  unfold PointHeap.from
  split
  · exact .refl _
  split
  · exact .refl _
  cases l with
  | nil => exact .refl _
  | cons p l => exact .bind (initPoints_checked _ _ _) fun _ => .refl _

theorem recalculate_checked (h : PointHeap) (j : Nat) : StopsOrSame (h.recalculate .debug j) (h.recalculate .release j) := by
  unfold PointHeap.recalculate
  split
  · exact .refl _
  split
  · split
    · refine .bind (triWeight_checked _ _ _) fun w => ?_
      split
      · exact .refl _
      split
      · refine .bind (.refl _) fun h1 => ?_
        split
        · exact .inl rfl
        · exact .refl _
      · exact .refl _
    · exact .refl _
  · exact .refl _

theorem recalculateOpt_checked (h : PointHeap) (j : Option Nat) :
    StopsOrSame (h.recalculateOpt .debug j) (h.recalculateOpt .release j) := by
  cases j with
  | none => exact .refl _
  | some j => exact recalculate_checked _ _

theorem vwLoop_checked (smallest fuel last : Nat) (h : PointHeap) :
    StopsOrSame (h.vwLoop .debug smallest fuel last) (h.vwLoop .release smallest fuel last) := by
  induction fuel generalizing last h with
  | zero =>
    unfold PointHeap.vwLoop
    exact .refl _
  | succ fuel ih =>
    unfold PointHeap.vwLoop
    split
    · refine .bind (.refl _) fun a => ?_
      dsimp only
      split
      · exact .refl _
      split
      · exact .bind (.refl _) fun _ => .bind (recalculateOpt_checked _ _) fun _ => .bind (recalculateOpt_checked _ _) fun _ => ih _ _
      split
      · exact .refl _
      · exact .bind (recalculateOpt_checked _ _) fun _ => .bind (recalculateOpt_checked _ _) fun _ => ih _ _
    · exact .refl _

theorem simplifyEdge_checked (l : List Point) (smallest : Nat) :
    StopsOrSame (simplifyEdge .debug l smallest) (simplifyEdge .release l smallest) :=
  .bind (pointHeapFrom_checked _) fun _ => .bind (vwLoop_checked _ _ _ _) fun _ => .refl _

theorem simplifyEdges_checked (smallest : Nat) (l : List TopoEdge) :
    StopsOrSame (simplifyEdges .debug smallest l) (simplifyEdges .release smallest l) := by
  induction l with
  | nil => exact .refl _
  | cons e l ih => exact .bind (simplifyEdge_checked _ _) fun _ => .bind ih fun _ => .refl _

theorem simplify_checked {δ : Type} (t : Topology δ) (smallest : Nat) :
    StopsOrSame (simplify .debug t smallest) (simplify .release t smallest) :=
  .bind (simplifyEdges_checked _ _) fun _ => .refl _

theorem partitionRings_checked (q : ShapefileQuantizer) (a b : List Ring) (l : List ShpPolygonRing) :
    StopsOrSame (partitionRings .debug q a b l) (partitionRings .release q a b l) := by
  induction l generalizing a b with
  | nil => exact .refl _
  | cons r l ih =>
    refine .bind (ringWindingOrder_checked _) fun o => ?_
    split
    · exact ih _ _
    · exact ih _ _

theorem geoNext_checked {σ τ : Type} [Source σ] [Source τ] (it : ShapefileGeoIterator σ τ) :
    StopsOrSame (it.next .debug) (it.next .release) := by
  refine .bind (.refl _) fun x => ?_
  obtain ⟨_ | e | r, reader⟩ := x
  · exact .refl _
  · exact .refl _
  · exact .bind (partitionRings_checked _ _ _ _) fun _ => .refl _

theorem parseShpHeader_checked (bs : Bytes) : StopsOrSame (parseShpHeader .debug bs) (parseShpHeader .release bs) := by
  refine .bind (.refl _) fun _ => .bind (.refl _) fun _ => .bind (.refl _) fun _ => .bind (.refl _) fun _ =>
    .bind (.refl _) fun _ => .bind (.refl _) fun _ => .bind (.refl _) fun _ => .bind (.refl _) fun _ => ?_
  split
  · exact .refl _
  split
  · exact .refl _
  split
  · split
    · exact .bind (.u32 _) fun _ => .refl _
    · exact .refl _
  · exact .refl _

theorem shpNew_checked {σ : Type} [Source σ] (f : σ) : StopsOrSame (ShpReader.new .debug f) (ShpReader.new .release f) := by
  refine .bind ?_ fun _ => .refl _
  unfold readShpHeader
  split
  · exact .refl _
  · exact .bind (parseShpHeader_checked _) fun _ => .refl _

theorem dbfNew_checked {σ : Type} [Source σ] (f : σ) (enc : Encoding) :
    StopsOrSame (DbfReader.new .debug f enc) (DbfReader.new .release f enc) := by
  refine .bind (.bind (.refl _) fun x => ?_) fun _ => .refl _
  obtain ⟨e | h, f1⟩ := x
  · exact .refl _
  · refine .bind ?_ fun _ => .refl _
    unfold readDbfFields
    split
    · exact .inl rfl
    · exact .refl _

theorem shapefileNew_checked {σ τ : Type} [Source σ] [Source τ] (f : σ) (g : τ) (enc : Encoding) :
    StopsOrSame (ShapefileReader.new .debug f g enc) (ShapefileReader.new .release f g enc) :=
  .bind (shpNew_checked _) fun _ => .bind (dbfNew_checked _ _) fun _ => .refl _

theorem shpOpen_checked {σ : Type} [Source σ] (fs : FileSystem σ) (path : Path) :
    StopsOrSame (shpOpen .debug fs path) (shpOpen .release fs path) := by
  unfold shpOpen
  split
  · exact .refl _
  · exact shpNew_checked _

theorem dbfOpen_checked {σ : Type} [Source σ] (fs : FileSystem σ) (path : Path) (enc : Encoding) :
    StopsOrSame (dbfOpen .debug fs path enc) (dbfOpen .release fs path enc) := by
  unfold dbfOpen
  split
  · exact .refl _
  · exact dbfNew_checked _ _

theorem shapefileOpen_checked {σ : Type} [Source σ] (fs : FileSystem σ) (path : Path) (enc : Encoding) :
    StopsOrSame (shapefileOpen .debug fs path enc) (shapefileOpen .release fs path enc) := by
  refine .bind (shpOpen_checked _ _) fun x => ?_
  cases x with
  | error e => exact .refl _
  | ok r => exact .bind (dbfOpen_checked _ _ _) fun _ => .refl _

theorem readRegions_checked {σ τ : Type} [Source σ] [Source τ] (fuel : Nat) (it : ShapefileGeoIterator σ τ)
    (b : TopologyBuilder DbfRecord) (n : Nat) :
    StopsOrSame (readRegions .debug fuel it b n) (readRegions .release fuel it b n) := by
  induction fuel generalizing it b n with
  | zero => exact .refl _
  | succ fuel ih =>
    refine .bind (geoNext_checked _) fun x => ?_
    obtain ⟨_ | e | r, it'⟩ := x
    · exact .refl _
    · exact .refl _
    · exact .bind (addRegion_checked _ _) fun _ => ih _ _ _

theorem dbfOpenAscii_checked {σ : Type} [Source σ] (labels : Text → Option Encoding) (fs : FileSystem σ) (path : Path) :
    StopsOrSame (dbfOpenAscii .debug labels fs path) (dbfOpenAscii .release labels fs path) := by
  unfold dbfOpenAscii
  split
  · exact .refl _
  · exact dbfOpen_checked _ _ _

theorem shpToGeoData_checked {σ : Type} [Source σ] (fuel : Nat) (fs : FileSystem σ) (path : Path) (enc : Encoding) :
    StopsOrSame (shpToGeoData .debug fuel fs path enc) (shpToGeoData .release fuel fs path enc) := by
  refine .bind (shapefileOpen_checked _ _ _) fun x => ?_
  cases x with
  | error e => exact .refl _
  | ok r =>
    refine .bind (readRegions_checked _ _ _ _) fun x => ?_
    obtain e | ⟨b, n⟩ := x
    · exact .refl _
    · exact .bind (.refl _) fun _ => .bind (normalize_checked _) fun _ => .bind (clipTopology_checked _ _) fun _ => .refl _

theorem catShp_checked {σ : Type} [Source σ] (showF64 : UInt64 → Text) (debugError : DbfError → Text) (fuel : Nat)
    (fs : FileSystem σ) (path : Path) (enc : Encoding) :
    StopsOrSame (catShp .debug showF64 debugError fuel fs path enc) (catShp .release showF64 debugError fuel fs path enc) := by
  refine .bind (shapefileOpen_checked _ _ _) fun x => ?_
  cases x with
  | error e => exact .refl _
  | ok r => exact .refl _

namespace Spec.StopsOrSameRun

theorem refl (x : ProgramRun) : StopsOrSameRun x x := .inr rfl

theorem orPanic {α : Type} {x y : R α} {f g : α → ProgramRun} (h : StopsOrSame x y)
    (hf : ∀ a, StopsOrSameRun (f a) (g a)) : StopsOrSameRun (.orPanic x f) (.orPanic y g) := by
  rcases h with rfl | rfl
  · exact .inl ⟨rfl, rfl, List.nil_prefix⟩
  · cases x with
    | error e => exact .inr rfl
    | ok a => exact hf a

theorem after {x y : ProgramRun} (l : List Text) (h : StopsOrSameRun x y) : StopsOrSameRun (.after l x) (.after l y) := by
  rcases h with ⟨h1, h2, h3⟩ | rfl
  · exact .inl ⟨h1, h2, (List.prefix_append_right_inj l).mpr h3⟩
  · exact .inr rfl

theorem withPath {args : List (Option Text)} {f g : Text → ProgramRun} (h : ∀ p, StopsOrSameRun (f p) (g p)) :
    StopsOrSameRun (TopoGeo.withPath args f) (TopoGeo.withPath args g) := by
  unfold TopoGeo.withPath
  split
  · exact refl _
  · exact orPanic (.refl _) fun _ => orPanic (.refl _) h

end Spec.StopsOrSameRun

theorem geoMain_checked {σ : Type} [Source σ] (showIo : IoError → Text) (toPath : Text → Path) (fuel : Nat)
    (fs : FileSystem σ) (enc : Encoding) (args : List (Option Text)) :
    StopsOrSameRun (geoMain .debug showIo toPath fuel fs enc args) (geoMain .release showIo toPath fuel fs enc args) := by
  refine .withPath fun p => .orPanic (shapefileOpen_checked _ _ _) fun x => ?_
  cases x with
  | error e => exact .refl _
  | ok r =>
    refine .orPanic (readRegions_checked _ _ _ _) fun x => ?_
    obtain e | ⟨b, n⟩ := x
    · exact .refl _
    · exact .after _ (.orPanic (.refl _) fun _ => .after _ (.orPanic (normalize_checked _) fun _ => .after _
        (.orPanic (clipTopology_checked _ _) fun _ => .refl _)))

theorem catMain_checked {σ : Type} [Source σ] (showF64 : UInt64 → Text) (debugError : DbfError → Text)
    (showIo : IoError → Text) (toPath : Text → Path) (fuel : Nat) (fs : FileSystem σ) (enc : Encoding)
    (args : List (Option Text)) :
    StopsOrSameRun (catMain .debug showF64 debugError showIo toPath fuel fs enc args)
      (catMain .release showF64 debugError showIo toPath fuel fs enc args) := by
  refine .withPath fun p => .orPanic (shapefileOpen_checked _ _ _) fun x => ?_
  cases x with
  | error e => exact .refl _
  | ok r => exact .refl _

end TopoGeo
