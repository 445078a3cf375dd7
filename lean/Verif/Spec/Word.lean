import Verif.Spec.Shp
/-!
# Specification: .shp records on a machine with 32-bit addresses
-/

namespace TopoGeo.Spec

/-- The content has counts: it is long enough for them, of the right type and has
parts. -/
def Counted (bs : Bytes) : Prop := 44 ≤ bs.length ∧ u32le bs 0 = 5 ∧ u32le bs 36 ≠ 0

/-- The only part starts so far beyond all points that adding three to its offset
exceeds 32 bits, and this is noticed by a panic. -/
def FarPart (m : Build) (bs : Bytes) : Prop :=
  u32le bs 36 = 1 ∧ 2 ^ 32 ≤ u32le bs 44 + 3 ∧ (m = .debug ∨ u32le bs 44 + 3 - 2 ^ 32 < u32le bs 40)

/-- Contents on which 32-bit addresses make a difference. -/
def Differs32 (m : Build) (bs : Bytes) : Prop :=
  Counted bs ∧ (2 ^ 32 ≤ neededLength bs ∨ (bs.length = neededLength bs ∧ (2 ^ 28 ≤ u32le bs 36 ∨ FarPart m bs)))

/-- How reading a record's content ends on a machine with 32-bit addresses, for
each content. -/
inductive Reading32 (m : Build) (number : Nat) (bs : Bytes) : Outcome → Prop where
  | tooLarge : Counted bs → 2 ^ 32 ≤ neededLength bs → m = .debug → Reading32 m number bs .panics
  | wrappedLength : Counted bs → 2 ^ 32 ≤ neededLength bs → m = .release → bs.length ≠ neededLength bs % 2 ^ 32 →
      Reading32 m number bs (.error (.wrongLength number (neededLength bs % 2 ^ 32) (u32le bs 36) (u32le bs 40) bs.length))
  | wrappedToRight : Counted bs → 2 ^ 32 ≤ neededLength bs → m = .release → bs.length = neededLength bs % 2 ^ 32 →
      Reading32 m number bs .panics
  | manyParts : Counted bs → bs.length = neededLength bs → 2 ^ 28 ≤ u32le bs 36 → Reading32 m number bs .panics
  | farPart : Counted bs → bs.length = neededLength bs → FarPart m bs → Reading32 m number bs .panics
  | same (v) : ¬ Differs32 m bs → Reading number bs v → Reading32 m number bs v

end TopoGeo.Spec
