import Verif.Proofs.Display
/-!
# Properties C64 and C65: texts
-/

namespace TopoGeo
open Spec

/-! ## C64: the text of a geometry tells what it is -/

/-- The text of a point. -/
theorem C64_point (p : Point) : ∃ x y, IsDecimal x p.x.toNat ∧ IsDecimal y p.y.toNat ∧
    p.show = ['('] ++ x ++ [','] ++ y ++ [')'] :=
  ⟨_, _, isDecimal_toDigits _, isDecimal_toDigits _, rfl⟩

/-- The text of an edge, and of both kinds of ring. -/
theorem C64_format (ps : List Point) (es : List Edge) :
    (∃ body, Separated [','] (ps.map Point.show) body ∧ showEdge ps = "Edge(".toList ++ body ++ [')'] ∧
      (Ring.points ps).show = ['['] ++ body ++ [']']) ∧
    ∃ body, Separated [','] (es.map showEdge) body ∧ (Ring.edges es).show = ['['] ++ body ++ [']'] :=
  ⟨⟨_, (showItems_separated _ _ _).1, rfl, rfl⟩, _, (showItems_separated _ _ _).1, rfl⟩

/-- Edges with the same text are equal. -/
theorem C64_edge (a b : Edge) (h : showEdge a = showEdge b) : a = b :=
  (showEdge_recognisable a b [] [] (by rw [h])).1

/-- Rings with the same text are equal, unless they are empty. -/
theorem C64_ring (a b : Ring) : a.show = b.show ↔ SameRing a b := by
  constructor
  · intro h
    exact (Ring.show_recognisable a b [] [] (by rw [h])).1
  · rintro (rfl | ⟨rfl | rfl, rfl | rfl⟩) <;> rfl

/-- Regions have the same text iff they have the same rings in the same order and
roles. -/
theorem C64_region {δ ε : Type} (a : Region δ) (b : Region ε) :
    a.show = b.show ↔
      List.Forall₂ SameRing a.outerRings b.outerRings ∧ List.Forall₂ SameRing a.innerRings b.innerRings := by
  have hr : ∀ x y : List Ring, List.Forall₂ SameRing x y → showRings x = showRings y := by
    intro x y h
    unfold showRings
    congr 2
    generalize 0 = i
    induction h generalizing i with
    | nil => rfl
    | cons h _ ih => rw [showItems, showItems, (C64_ring _ _).2 h, ih]
  constructor
  · intro h
    unfold Region.show at h
    simp only [List.append_assoc] at h
    obtain ⟨h1, h2⟩ := showRings_recognisable _ _ _ _ (List.append_cancel_left h)
    exact ⟨h1, (showRings_recognisable _ _ _ _ (List.append_cancel_left h2)).1⟩
  · rintro ⟨h1, h2⟩
    unfold Region.show
    rw [hr _ _ h1, hr _ _ h2]

/-- Non-vacuity: rings with different texts and empty rings with the same one. -/
example : (Ring.points [⟨1, 23⟩]).show = "[(1,23)]".toList ∧ (Ring.points [⟨12, 3⟩]).show = "[(12,3)]".toList ∧
    (Ring.edges [[⟨1, 2⟩, ⟨3, 4⟩], []]).show = "[Edge((1,2),(3,4)),Edge()]".toList ∧
    (Ring.edges []).show = (Ring.points []).show ∧
    (⟨(), [.points [], .points [⟨0, 0⟩]], []⟩ : Region Unit).show =
      "Region([data], outer:[[], [(0,0)]], inner:[])".toList := by decide +kernel

/-! ## C65: the text of a record -/

theorem showFields_valid (dbg : DbfError → Text) (record : DbfRecord) (values : List Text) (fields : List DbfField) (i : Nat) (s : Text)
    (h : List.Forall₂ (fun (f : DbfField) v => f.readString record = .ok (.ok v)) fields values) :
    showFields dbg record i s fields = .ok ("{".toList ++
      (s ++ showItems "; ".toList (fun fv : DbfField × Text => fv.1.name ++ [':'] ++ fv.2) i (fields.zip values)) ++ "}".toList) := by
  induction h generalizing i s with
  | nil => simp [showFields, showItems]
  | @cons f v fs vs h _ ih =>
    rw [showFields, h, ok_bind]
    simp only
    rw [ih, List.zip_cons_cons, showItems]
    by_cases hi : i = 0
    · rw [if_neg (by omega), if_neg (by omega)]; simp
    · rw [if_pos (by omega), if_pos (by omega)]; simp

theorem showFields_prefix (dbg : DbfError → Text) (record : DbfRecord) (pre post : List DbfField) (i : Nat) (s : Text)
    (h : ∀ f ∈ pre, ∃ v, f.readString record = .ok (.ok v)) :
    ∃ i' s', showFields dbg record i s (pre ++ post) = showFields dbg record i' s' post := by
  induction pre generalizing i s with
  | nil => exact ⟨i, s, rfl⟩
  | cons f pre ih =>
    obtain ⟨v, hv⟩ := h f (by simp)
    obtain ⟨i', s', h'⟩ := ih (i + 1) ((if i ≠ 0 then s ++ "; ".toList else s) ++ f.name ++ [':'] ++ v)
      (fun g hg => h g (by simp [hg]))
    refine ⟨i', s', ?_⟩
    rw [List.cons_append, showFields, hv, ok_bind]
    exact h'

/-- A record whose fields can all be read: their names and values. -/
theorem C65_valid (dbg : DbfError → Text) (record : DbfRecord) (values : List Text)
    (h : List.Forall₂ (fun (f : DbfField) v => f.readString record = .ok (.ok v)) record.dbfMeta.fields values) :
    ∃ body, Separated "; ".toList ((record.dbfMeta.fields.zip values).map fun fv => fv.1.name ++ [':'] ++ fv.2) body ∧
      record.show dbg = .ok ("{".toList ++ body ++ "}".toList) :=
  ⟨_, (showItems_separated _ _ _).1, by rw [DbfRecord.show, showFields_valid dbg record values _ _ _ h]; rfl⟩

/-- A record with a malformed field: the first error, and nothing of the
fields. -/
theorem C65_invalid (dbg : DbfError → Text) (record : DbfRecord) (pre post : List DbfField) (f : DbfField) (e : DbfError)
    (hr : record.dbfMeta.fields = pre ++ f :: post) (hp : ∀ g ∈ pre, ∃ v, g.readString record = .ok (.ok v))
    (hf : f.readString record = .ok (.error e)) :
    record.show dbg = .ok ("{Invalid DBF record: ".toList ++ dbg e ++ "}".toList) := by
  rw [DbfRecord.show, hr]
  obtain ⟨i, s, h⟩ := showFields_prefix dbg record pre (f :: post) 0 [] hp
  rw [h, showFields, hf, ok_bind]

/-- Formatting panics iff reading a field panics before any field is malformed. -/
theorem C65_panics (dbg : DbfError → Text) (record : DbfRecord) :
    (∃ e, record.show dbg = .error e) ↔ ∃ pre f post, record.dbfMeta.fields = pre ++ f :: post ∧
      (∀ g ∈ pre, ∃ v, g.readString record = .ok (.ok v)) ∧ ∃ e, f.readString record = .error e := by
  constructor
  · rintro ⟨e, h⟩
    unfold DbfRecord.show at h
    generalize record.dbfMeta.fields = fields at h ⊢
    generalize 0 = i, ([] : Text) = s at h
    induction fields generalizing i s with
    | nil => cases h
    | cons f rest ih =>
      cases hf : f.readString record with
      | error e' => exact ⟨[], f, rest, rfl, by simp, e', hf⟩
      | ok x =>
        rw [showFields, hf, ok_bind] at h
        cases x with
        | error e' => cases h
        | ok v =>
          obtain ⟨pre, g, post, h1, h2, h3⟩ := ih _ _ h
          refine ⟨f :: pre, g, post, by rw [h1]; rfl, ?_, h3⟩
          intro g hg
          rcases List.mem_cons.1 hg with rfl | hg
          · exact ⟨v, hf⟩
          · exact h2 g hg
  · rintro ⟨pre, f, post, hr, hp, e, hf⟩
    refine ⟨e, ?_⟩
    rw [DbfRecord.show, hr]
    obtain ⟨i, s, h⟩ := showFields_prefix dbg record pre (f :: post) 0 [] hp
    rw [h, showFields, hf]
    rfl

/-- A shapefile record: the attributes, then the rings. -/
theorem C65_shapefile (showF64 : UInt64 → Text) (dbg : DbfError → Text) (r : ShapefileRecord) :
    (∀ data, r.data.show dbg = .ok data → ∃ body rings, Separated "; ".toList rings body ∧
      r.show showF64 dbg = .ok ("ShapefileRecord(".toList ++ data ++ "; rings: ".toList ++ body ++ [')']) ∧
      List.Forall₂ (fun (ring : ShpPolygonRing) text => ∃ points, Separated [',']
        (ring.map fun p => ['('] ++ showF64 p.x ++ [','] ++ showF64 p.y ++ [')']) points ∧ text = ['['] ++ points ++ [']'])
        r.rings rings) ∧
    ∀ e, r.data.show dbg = .error e → r.show showF64 dbg = .error e := by
  constructor
  · intro data h
    refine ⟨_, r.rings.map (showShpRing showF64), (showItems_separated _ _ _).1, ?_, ?_⟩
    · rw [ShapefileRecord.show, h]; rfl
    · rw [List.forall₂_map_right_iff]
      refine List.forall₂_same.2 fun ring _ => ⟨_, (showItems_separated _ _ _).1, rfl⟩
  · intro e h
    rw [ShapefileRecord.show, h]; rfl

/-- Non-vacuity: a record of two fields, one with a malformed number, and one whose
date is not reached, with a date that is. -/
example :
    let m : DbfMeta := ⟨1, 6, [⟨"id".toList, .numeric, 1, 2⟩, ⟨"name".toList, .character .ascii, 3, 3⟩]⟩
    let d : DbfMeta := ⟨1, 3, [⟨"id".toList, .numeric, 1, 2⟩, ⟨"day".toList, .date, 1, 2⟩]⟩
    DbfRecord.show (fun _ => ['!']) ⟨m, [0x20, 0x20, 0x37, 0x41, 0x42, 0x20]⟩ = .ok "{id:7; name:AB}".toList ∧
    DbfRecord.show (fun _ => ['!']) ⟨m, [0x20, 0x20, 0x40, 0x41, 0x42, 0x20]⟩ = .ok "{Invalid DBF record: !}".toList ∧
    DbfRecord.show (fun _ => ['!']) ⟨d, [0x20, 0x20, 0x40]⟩ = .ok "{Invalid DBF record: !}".toList ∧
    DbfRecord.show (fun _ => ['!']) ⟨d, [0x20, 0x20, 0x37]⟩ = .error .unimplemented := by decide +kernel

end TopoGeo
