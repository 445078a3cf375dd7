import Verif.Model.Program
import Verif.Proofs.Display
/-!
# Texts of errors, taken apart
-/

namespace TopoGeo
open Spec

def nonDigit (c : Char) : Bool := !c.isDigit

theorem filter_showNat (n : Nat) : (showNat n).filter nonDigit = [] := by
  rw [List.filter_eq_nil_iff]
  intro c hc
  simp [nonDigit, showNat_isDigit c hc]

/-- Numbers in front of the same text. -/
theorem showNat_append {lit : Text} (hl : lit.head?.all nonDigit = true) (hn : lit ≠ []) {n k : Nat} {s t : Text}
    (h : showNat n ++ (lit ++ s) = showNat k ++ (lit ++ t)) : n = k ∧ s = t := by
  have hd : ∀ x : Text, ∀ c ∈ (lit ++ x).head?, ¬ c.isDigit := by
    intro x c hc
    cases lit with
    | nil => exact absurd rfl hn
    | cons a lit =>
      have : a = c := by simpa using hc
      subst this
      simpa [nonDigit] using hl
  obtain ⟨h1, h2⟩ := append_inj_digits showNat_isDigit showNat_isDigit (hd s) (hd t) h
  exact ⟨showNat_inj h1, List.append_cancel_left h2⟩

/-- Which of the texts it is. -/
def ShpParseError.kind : ShpParseError → Nat
  | .wrongMagic _ => 0
  | .wrongVersion _ => 1
  | .unsupportedType found => 100 + found
  | .nonexistentType _ => 2
  | .recordShapeType _ _ => 3
  | .noParts _ => 4
  | .wrongLength _ _ _ _ _ => 5
  | .partOutOfRange _ _ _ _ => 6
  | .partInvalidRange _ _ _ => 7
  | .lastPart _ _ _ => 8
  | .fileTooLong _ => 9

/-- The texts without numbers. -/
def plainTexts : List (Nat × Text) :=
  [(0, "File has wrong magic number: found , expected ".toList),
   (1, "File has wrong version: found , expected ".toList),
   (2, "File has nonexistent data type ".toList),
   (3, "Record number  has unsupported shape type: found , expected ".toList),
   (4, "Record number  has no parts".toList),
   (5, "Record number  needs  bytes (it has  parts and  points), but the record header says it has  bytes".toList),
   (6, "Record number  has a ring with points -, but there are only  points in the record".toList),
   (7, "Record number  has a ring with points -, but that's an invalid range".toList),
   (8, "Record number  has a ring starting at point , but there are only  points in the record".toList),
   (9, "The Shapefile header suggests the file is  bytes long, but it's longer than that.".toList)] ++
  [0, 1, 3, 5, 8, 11, 13, 15, 18, 21, 23, 25, 28, 31].map fun u =>
    (100 + u, "File has unsupported type: found ".toList ++ shapeTypeName u ++ ", expected Polygon".toList)

theorem plainTexts_inj : ∀ a ∈ plainTexts, ∀ b ∈ plainTexts, a.2 = b.2 → a.1 = b.1 := by decide +kernel

theorem mem_plainTexts (e : ShpParseError) (h : ∀ u, e = .unsupportedType u → isShapeType u) :
    (e.kind, e.text.filter nonDigit) ∈ plainTexts := by
  cases e with
  | unsupportedType u =>
    have hu := h u rfl
    simp only [isShapeType, List.contains_iff_mem] at hu
    clear h
    revert u
    decide +kernel
  | _ =>
    delta ShpParseError.text
    dsimp only
    simp only [List.filter_append, filter_showNat, ShpParseError.kind]
    decide +kernel

theorem ShpParseError.kind_eq {a b : ShpParseError} (ha : ∀ u, a = .unsupportedType u → isShapeType u)
    (hb : ∀ u, b = .unsupportedType u → isShapeType u) (h : a.text = b.text) : a.kind = b.kind :=
  plainTexts_inj _ (mem_plainTexts a ha) _ (mem_plainTexts b hb) (by simp only [h])

/-- Texts of one kind tell the numbers in them. -/
theorem ShpParseError.text_inj {a b : ShpParseError} (hk : a.kind = b.kind) (h : a.text = b.text) : a = b := by
  cases a <;> cases b <;> simp only [ShpParseError.kind] at hk <;> try omega
  all_goals
    delta ShpParseError.text at h
    dsimp only at h
  case wrongMagic.wrongMagic =>
    simp only [List.append_assoc, List.append_cancel_left_eq] at h
    rw [(showNat_append (by decide) (by decide) h).1]
  case wrongVersion.wrongVersion =>
    simp only [List.append_assoc, List.append_cancel_left_eq] at h
    rw [(showNat_append (by decide) (by decide) h).1]
  case unsupportedType.unsupportedType =>
    rw [Nat.add_left_cancel hk]
  case nonexistentType.nonexistentType =>
    rw [showNat_inj (List.append_cancel_left h)]
  case recordShapeType.recordShapeType =>
    simp only [List.append_assoc, List.append_cancel_left_eq] at h
    obtain ⟨h1, h⟩ := showNat_append (by decide) (by decide) h
    obtain ⟨h2, h⟩ := showNat_append (by decide) (by decide) h
    rw [h1, h2]
  case noParts.noParts =>
    simp only [List.append_assoc, List.append_cancel_left_eq] at h
    rw [showNat_inj (List.append_cancel_right h)]
  case wrongLength.wrongLength =>
    simp only [List.append_assoc, List.append_cancel_left_eq] at h
    obtain ⟨h1, h⟩ := showNat_append (by decide) (by decide) h
    obtain ⟨h2, h⟩ := showNat_append (by decide) (by decide) h
    obtain ⟨h3, h⟩ := showNat_append (by decide) (by decide) h
    obtain ⟨h4, h⟩ := showNat_append (by decide) (by decide) h
    rw [h1, h2, h3, h4, showNat_inj (List.append_cancel_right h)]
  case partOutOfRange.partOutOfRange =>
    simp only [List.append_assoc, List.append_cancel_left_eq] at h
    obtain ⟨h1, h⟩ := showNat_append (by decide) (by decide) h
    obtain ⟨h2, h⟩ := showNat_append (by decide) (by decide) h
    obtain ⟨h3, h⟩ := showNat_append (by decide) (by decide) h
    rw [h1, h2, h3, showNat_inj (List.append_cancel_right h)]
  case partInvalidRange.partInvalidRange =>
    simp only [List.append_assoc, List.append_cancel_left_eq] at h
    obtain ⟨h1, h⟩ := showNat_append (by decide) (by decide) h
    obtain ⟨h2, h⟩ := showNat_append (by decide) (by decide) h
    rw [h1, h2, showNat_inj (List.append_cancel_right h)]
  case lastPart.lastPart =>
    simp only [List.append_assoc, List.append_cancel_left_eq] at h
    obtain ⟨h1, h⟩ := showNat_append (by decide) (by decide) h
    obtain ⟨h2, h⟩ := showNat_append (by decide) (by decide) h
    rw [h1, h2, showNat_inj (List.append_cancel_right h)]
  case fileTooLong.fileTooLong =>
    simp only [List.append_assoc, List.append_cancel_left_eq] at h
    rw [showNat_inj (List.append_cancel_right h)]

end TopoGeo
