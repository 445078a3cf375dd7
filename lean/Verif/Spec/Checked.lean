import Verif.Model.Program
import Verif.Model.Simplify
/-!
# What overflow checks change
-/

namespace TopoGeo.Spec

/-- A run with overflow checks, compared with one without: it stops at an overflow,
or it is the same. -/
def StopsOrSame {α : Type} (checked unchecked : R α) : Prop := checked = .error .overflow ∨ checked = unchecked

/-- The same for programs: one that stops has printed a part of what the other one
prints. -/
def StopsOrSameRun (checked unchecked : ProgramRun) : Prop :=
  (checked.exit = .panicked .overflow ∧ checked.stderr = [] ∧ checked.stdout <+: unchecked.stdout) ∨ checked = unchecked

end TopoGeo.Spec
