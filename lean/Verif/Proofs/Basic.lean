import Mathlib.Tactic.Ring
import Mathlib.Tactic.Linarith
import Verif.Spec.Geo
/-!
# Helper lemmas: the panic monad and machine integers
-/

namespace TopoGeo

open Spec

theorem bind_ok {ε : Type u} {α β : Type v} {x : Except ε α} {f : α → Except ε β} {b : β} :
    (x >>= f) = .ok b ↔ ∃ a, x = .ok a ∧ f a = .ok b := by
  cases x <;> simp [bind, Except.bind]

theorem bind_error {ε : Type u} {α β : Type v} {x : Except ε α} {f : α → Except ε β} {e : ε} :
    (x >>= f) = .error e ↔ x = .error e ∨ ∃ a, x = .ok a ∧ f a = .error e := by
  cases x <;> simp [bind, Except.bind]

@[simp] theorem ok_bind {ε : Type u} {α β : Type v} (a : α) (f : α → Except ε β) :
    ((Except.ok a : Except ε α) >>= f) = f a := rfl

@[simp] theorem error_bind {ε : Type u} {α β : Type v} (e : ε) (f : α → Except ε β) :
    ((Except.error e : Except ε α) >>= f) = .error e := rfl

theorem wrap64_eq_bmod (z : Int) : wrap64 z = z.bmod (2 ^ 64) := by
  unfold wrap64
  rw [Int.bmod_def]
  norm_num
  split <;> omega

theorem wrap64_of_inI64 {z : Int} (h : InI64 z) : wrap64 z = z := by
  unfold InI64 at h; unfold wrap64; omega

theorem inI64_wrap64 (z : Int) : InI64 (wrap64 z) := by
  unfold InI64 wrap64; omega

theorem wrap64_add_wrap64_left (a b : Int) : wrap64 (wrap64 a + b) = wrap64 (a + b) := by
  unfold wrap64; omega

theorem wrap64_add_wrap64_right (a b : Int) : wrap64 (a + wrap64 b) = wrap64 (a + b) := by
  unfold wrap64; omega

theorem wrap64_sub_wrap64 (a b : Int) : wrap64 (wrap64 a - wrap64 b) = wrap64 (a - b) := by
  unfold wrap64; omega

theorem wrap64_wrap64 (a : Int) : wrap64 (wrap64 a) = wrap64 a := by
  unfold wrap64; omega

theorem i64_release (z : Int) : Build.release.i64 z = .ok (wrap64 z) := by
  unfold Build.i64
  split
  · rename_i h; rw [wrap64_of_inI64 h]
  · simp [wrap64_eq_bmod]

theorem i64_of_inI64 {m : Build} {z : Int} (h : InI64 z) : m.i64 z = .ok z := by
  unfold Build.i64; exact if_pos h

theorem i64_of_not_inI64 {m : Build} {z : Int} (h : ¬ InI64 z) :
    m.i64 z = match m with
      | .debug => .error .overflow
      | .release => .ok (z.bmod (2 ^ 64)) := by
  unfold Build.i64; exact if_neg h

theorem i64_debug {z v : Int} : Build.debug.i64 z = .ok v ↔ v = z ∧ InI64 z := by
  by_cases h : InI64 z
  · simp [i64_of_inI64 h, h, eq_comm]
  · simp [i64_of_not_inI64 h, h]

theorem i64_error {m : Build} {z : Int} {e : Panic} :
    m.i64 z = .error e ↔ m = .debug ∧ e = .overflow ∧ ¬ InI64 z := by
  by_cases h : InI64 z
  · simp [i64_of_inI64 h, h]
  · cases m <;> simp [i64_of_not_inI64 h, h, eq_comm]

theorem i64_ok_inI64 {m : Build} {z v : Int} (h : m.i64 z = .ok v) : InI64 v := by
  cases m with
  | debug => obtain ⟨rfl, h⟩ := i64_debug.1 h; exact h
  | release => rw [i64_release] at h; cases h; exact inI64_wrap64 z

theorem i64_ok_wrap {m : Build} {z v : Int} (h : m.i64 z = .ok v) : v = wrap64 z := by
  cases m with
  | debug => obtain ⟨rfl, h⟩ := i64_debug.1 h; exact (wrap64_of_inI64 h).symm
  | release => rw [i64_release] at h; cases h; rfl

end TopoGeo
