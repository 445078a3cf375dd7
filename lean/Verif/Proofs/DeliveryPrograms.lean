import Verif.Proofs.DeliveryRuns
/-!
# Programs that read files which arrive only in part
-/

namespace TopoGeo
open Spec

section
variable {σ τ : Type} [Source σ] [Source τ] {E : IoError → Prop} {Past : τ → Prop} {rel : σ → τ → Prop}

/-- The files of two file systems. -/
def FilesRel (rel : σ → τ → Prop) (fs : FileSystem σ) (fs' : FileSystem τ) : Prop :=
  ∀ path, (∃ e, fs path = .error e ∧ fs' path = .error e) ∨ ∃ f t, fs path = .ok f ∧ fs' path = .ok t ∧ rel f t

theorem shapefileOpen_kept (hf : Follows E Past rel) (m : Build) {fs : FileSystem σ} {fs' : FileSystem τ}
    (hfs : FilesRel rel fs fs') (path : Path) (enc : Encoding) :
    OpenKept (ShapefileRel rel rel) E (fun _ => True) (shapefileOpen m fs path enc) (shapefileOpen m fs' path enc) := by
  unfold shapefileOpen shpOpen dbfOpen
  have hsecond := hfs (setExtension path "dbf".toList)
  rcases hfs path with ⟨e, h1, h2⟩ | ⟨f, t, h1, h2, h3⟩
  · rw [h1, h2]
    exact .error _
  · rw [h1, h2]
    dsimp only
    have h := shpNew_opened hf m h3
    generalize ShpReader.new m f = x at h
    generalize ShpReader.new m t = y at h
    cases h with
    | panic p => exact .panic p
    | error e => exact .error _
    | ok a b h =>
      simp only [ok_bind]
      rcases hsecond with ⟨e, g1, g2⟩ | ⟨f2, t2, g1, g2, g3⟩
      · rw [g1, g2]
        exact .error _
      · rw [g1, g2]
        dsimp only
        have h' := dbfNew_opened hf m enc g3
        generalize DbfReader.new m f2 enc = x at h'
        generalize DbfReader.new m t2 enc = y at h'
        cases h' with
        | panic p => exact .panic p
        | error e => exact .error _
        | ok a2 b2 h' => exact .ok _ _ ⟨h, h'⟩
        | broke err y h hp =>
          obtain ⟨e, he, rfl⟩ := h
          exact .broke _ _ e he (.inl (.inr rfl)) fun _ _ => trivial
    | broke err y h hp =>
      obtain ⟨e, he, rfl⟩ := h
      exact .broke _ _ e he (.inl (.inl rfl)) fun _ _ => trivial

variable {showIo : IoError → Text} {enc : Encoding}

theorem Spec.StopsWithin.after {run run' : ProgramRun} (lines : List Text) (h : StopsWithin E showIo enc run run') :
    StopsWithin E showIo enc (run.after lines) (run'.after lines) := by
  cases h with
  | same => exact .same
  | stops l more opened err e he hp hl =>
    exact .stops (lines ++ l) more opened err e he hp (by
      show lines ++ run.stdout = _
      rw [hl, List.append_assoc])
  | hidden message p hp e he => exact .hidden (run := run.after lines) message p hp e he

theorem Spec.StopsWithin.orPanic {α : Type} (x : R α) {rest rest' : α → ProgramRun}
    (h : ∀ a, StopsWithin E showIo enc (rest a) (rest' a)) :
    StopsWithin E showIo enc (.orPanic x rest) (.orPanic x rest') := by
  cases x with
  | error p => exact .same
  | ok a => exact h a

theorem Spec.StopsWithin.withPath (args : List (Option Text)) {rest rest' : Text → ProgramRun}
    (h : ∀ a, StopsWithin E showIo enc (rest a) (rest' a)) :
    StopsWithin E showIo enc (withPath args rest) (TopoGeo.withPath args rest') := by
  unfold TopoGeo.withPath
  split
  · exact .same
  · exact .orPanic _ fun _ => .orPanic _ h

theorem catMainLoop_kept {σ' τ' : Type} [Source σ'] [Source τ'] {PastS : σ' → Prop} {PastD : τ' → Prop} {relS : σ → σ' → Prop}
    {relD : τ → τ' → Prop} (hs : Follows E PastS relS) (hd : Follows E PastD relD) (showF64 : UInt64 → Text)
    (dbg : DbfError → Text) :
    ∀ (fuel : Nat) (a : ShapefileReader σ τ) (b : ShapefileReader σ' τ') (n : Nat), ShapefileRel relS relD a b →
      StopsWithin E showIo enc (catMainLoop showF64 dbg showIo enc fuel b n) (catMainLoop showF64 dbg showIo enc fuel a n)
  | 0, a, b, n, hr => .same
  | fuel + 1, a, b, n, hr => by
    unfold catMainLoop
    have h := shapefileNext_kept hs hd hr
    generalize a.next = x at h
    generalize b.next = y at h
    cases h with
    | panic p => exact .same
    | same o a1 b1 h =>
      match o with
      | none => exact .same
      | some (.error e) => exact .same
      | some (.ok record) =>
        exact .orPanic _ fun line => .after _ (catMainLoop_kept hs hd showF64 dbg fuel a1 b1 (n + 1) h)
    | broke err a1 y e he h hp =>
      rcases h with h | ⟨p, rfl⟩ | ⟨b1, rfl⟩
      · exact .stops [] _ true err e he h rfl
      · exact .hidden (run := ⟨[], [], .panicked p⟩) _ p rfl e he
      · exact .same

theorem catMain_kept (hf : Follows E Past rel) (m : Build) (showF64 : UInt64 → Text) (dbg : DbfError → Text)
    (toPath : Text → Path) (fuel : Nat) {fs : FileSystem σ} {fs' : FileSystem τ} (hfs : FilesRel rel fs fs')
    (args : List (Option Text)) :
    StopsWithin E showIo enc (catMain m showF64 dbg showIo toPath fuel fs' enc args)
      (catMain m showF64 dbg showIo toPath fuel fs enc args) := by
  refine .withPath args fun path => ?_
  have h := shapefileOpen_kept hf m hfs (toPath path) enc
  generalize shapefileOpen m fs (toPath path) enc = x at h
  generalize shapefileOpen m fs' (toPath path) enc = y at h
  cases h with
  | panic p => exact .same
  | error err => exact .same
  | ok a b h => exact catMainLoop_kept hf hf showF64 dbg fuel a b 0 h
  | broke err y e he h hp =>
    rcases h with h | ⟨p, rfl⟩ | rfl
    · exact .stops [] _ false err e he h rfl
    · exact .hidden (run := ⟨[], [], .panicked p⟩) _ p rfl e he
    · exact .same

theorem readRegions_kept {σ' τ' : Type} [Source σ'] [Source τ'] {PastS : σ' → Prop} {PastD : τ' → Prop} {relS : σ → σ' → Prop}
    {relD : τ → τ' → Prop} (hs : Follows E PastS relS) (hd : Follows E PastD relD) (m : Build) :
    ∀ (fuel : Nat) (a : ShapefileGeoIterator σ τ) (b : ShapefileGeoIterator σ' τ') (builder : TopologyBuilder DbfRecord) (n : Nat),
      ShapefileRel relS relD a.reader b.reader → a.quantizer = b.quantizer →
      OpenKept (fun x y => x = y) E (fun _ => True) (readRegions m fuel a builder n) (readRegions m fuel b builder n)
  | 0, a, b, builder, n, hr, hq => .panic _
  | fuel + 1, a, b, builder, n, hr, hq => by
    unfold readRegions
    have h := geoNext_kept hs hd m hr hq
    generalize a.next m = x at h
    generalize b.next m = y at h
    cases h with
    | panic p => exact .panic p
    | same o a1 b1 h =>
      simp only [ok_bind]
      match o with
      | none => exact .ok _ _ rfl
      | some (.error e) => exact .error _
      | some (.ok region) =>
        dsimp only
        cases builder.addRegion m region with
        | error p => exact .panic p
        | ok builder' => exact readRegions_kept hs hd m fuel a1 b1 builder' (n + 1) h.1 h.2
    | broke err a1 y e he h hp =>
      simp only [ok_bind]
      refine .broke err _ e he ?_ fun _ _ => trivial
      rcases h with h | ⟨p, rfl⟩ | ⟨b1, rfl⟩
      · exact .inl h
      · exact .inr (.inl ⟨p, rfl⟩)
      · exact .inr (.inr rfl)

theorem geoMain_kept (hf : Follows E Past rel) (m : Build) (toPath : Text → Path) (fuel : Nat) {fs : FileSystem σ}
    {fs' : FileSystem τ} (hfs : FilesRel rel fs fs') (args : List (Option Text)) :
    StopsWithin E showIo enc (geoMain m showIo toPath fuel fs' enc args) (geoMain m showIo toPath fuel fs enc args) := by
  refine .withPath args fun path => ?_
  have h := shapefileOpen_kept hf m hfs (toPath path) enc
  generalize shapefileOpen m fs (toPath path) enc = x at h
  generalize shapefileOpen m fs' (toPath path) enc = y at h
  cases h with
  | panic p => exact .same
  | error err => exact .same
  | ok a b h =>
    have hq : (ShapefileGeoIterator.new a).quantizer = (ShapefileGeoIterator.new b).quantizer := by
      unfold ShapefileGeoIterator.new ShapefileReader.boundingBox
      rw [h.1.2.2]
    have h' := readRegions_kept hf hf m fuel (ShapefileGeoIterator.new a) (ShapefileGeoIterator.new b) TopologyBuilder.new 0 h hq
    dsimp only [ProgramRun.orPanic]
    generalize readRegions m fuel (ShapefileGeoIterator.new a) TopologyBuilder.new 0 = x at h'
    generalize readRegions m fuel (ShapefileGeoIterator.new b) TopologyBuilder.new 0 = y at h'
    cases h' with
    | panic p => exact .same
    | error err => exact .same
    | ok a b h => rw [h]; exact .same
    | broke err y e he h hp =>
      rcases h with h | ⟨p, rfl⟩ | rfl
      · exact .stops [] _ true err e he h rfl
      · exact .hidden (run := ⟨[], [], .panicked p⟩) _ p rfl e he
      · exact .same
  | broke err y e he h hp =>
    rcases h with h | ⟨p, rfl⟩ | rfl
    · exact .stops [] _ false err e he h rfl
    · exact .hidden (run := ⟨[], [], .panicked p⟩) _ p rfl e he
    · exact .same

end

end TopoGeo
