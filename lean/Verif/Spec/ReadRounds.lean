import Verif.Model.Open
/-!
# How much there is to read
-/

namespace TopoGeo.Spec

/-- `size` bounds what can still be read from a source: whatever is read from it counts. -/
def HoldsAtMost {σ : Type} [Source σ] (size : σ → Nat) : Prop :=
  ∀ s n b s', Source.readExact s n = (.ok b, s') → size s' + n ≤ size s

/-- The most bytes that a record of a .shp file can announce, with its header. -/
def longestRecord : Nat := 8 + 2 * (2 ^ 32 - 1)

/-- The size of the file at a path, if there is one. -/
def fileSize {σ : Type} (size : σ → Nat) (fs : FileSystem σ) (path : Path) : Nat :=
  match fs path with
  | .ok f => size f
  | .error _ => 0

/-- What the program takes for files of these sizes. -/
def programRounds (shp dbf : Nat) : Nat := 1185 * (shp * (shp.log2 + 1)) + 5 * dbf + 1

end TopoGeo.Spec
