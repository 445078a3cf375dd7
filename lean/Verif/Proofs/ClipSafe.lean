import Verif.Spec.ClipSafe
import Verif.Proofs.ClipCover
import Verif.Proofs.Cover
import Verif.Props.ClipTopology
/-!
# How often a plug is used
-/

namespace TopoGeo
open Spec

/-! ## The ends of what is left of an edge -/

/-- How often a path passes the mask line and is made to end in one of the points `P`. -/
def landings (m : Build) (mask : ClipMask) (P : Point → Bool) (l : List Point) : Nat :=
  (segs l).countP fun s => PassesLine mask s ∧ (clippedAt m mask s).any P

theorem landings_cons (m : Build) (mask : ClipMask) (P : Point → Bool) (a b : Point) (l : List Point) :
    landings m mask P (a :: b :: l) =
      landings m mask P (b :: l) + if PassesLine mask (a, b) ∧ (clippedAt m mask (a, b)).any P then 1 else 0 := by
  unfold landings
  rw [segs, List.countP_cons]
  simp only [decide_eq_true_eq]

/-- Whether it is one of the points. -/
def isAt (P : Point → Bool) (o : Option Point) : Nat := if o.any P then 1 else 0

/-- Whether the path comes from inside of the mask to one of the points and turns back. -/
def turnsBack (mask : ClipMask) (P : Point → Bool) (s s' : Point × Point) : Nat :=
  if 0 < depth mask s.1 ∧ P s.2 ∧ s.2 = s'.1 ∧ 0 < depth mask s'.2 then 1 else 0

/-- How often a line does so. -/
def turnsBackIn (mask : ClipMask) (P : Point → Bool) : List (Point × Point) → Nat
  | s :: s' :: l => turnsBack mask P s s' + turnsBackIn mask P (s' :: l)
  | _ => 0

/-- The path starts in one of the points and goes inside. -/
def entersFrom (mask : ClipMask) (P : Point → Bool) (prev : Point) (pts : List Point) : Nat :=
  if P prev ∧ ∃ q ∈ pts.head?, 0 < depth mask q then 1 else 0

theorem turnsBackIn_cons (mask : ClipMask) (P : Point → Bool) (a b : Point) (l : List Point) :
    turnsBackIn mask P (segs (a :: b :: l)) =
      turnsBackIn mask P (segs (b :: l)) + if 0 < depth mask a then entersFrom mask P b l else 0 := by
  cases l with
  | nil => simp [segs, turnsBackIn, entersFrom]
  | cons c l =>
    rw [segs, segs, turnsBackIn, turnsBack, entersFrom, ← segs]
    simp only [true_and, List.head?_cons, Option.mem_def, Option.some.injEq, exists_eq_left']
    by_cases h : 0 < depth mask a
    · simp [h]; omega
    · simp [h]

theorem clippedAt_cross {m : Build} {mask : ClipMask} {a b x : Point} (h : mask.intersect m a b = .ok x)
    (hc : Crosses mask a b) : clippedAt m mask (a, b) = some x := by
  unfold clippedAt
  have : depth mask a ≠ 0 ∧ depth mask b ≠ 0 := by rcases hc with h | h <;> omega
  simp [this.1, this.2, h, Except.toOption]

theorem clipRest_enters {m : Build} {mask : ClipMask} {prev q : Point} {last : Option Point} {pts l : List Point}
    (h : clipRest m mask prev last (q :: pts) = .ok l) (hq : 0 < depth mask q) : l ≠ [] := by
  simp only [clipRest] at h
  rw [if_neg (by omega), if_pos hq] at h
  split at h
  · rw [bind_ok] at h
    obtain ⟨x, hx, h⟩ := h
    rw [bind_ok] at h
    obtain ⟨l', h1, h⟩ := h
    obtain rfl := Except.ok.inj h
    simp
  · split at h
    · rw [bind_ok] at h
      obtain ⟨l', h1, h⟩ := h
      obtain rfl := Except.ok.inj h
      simp
    · rw [bind_ok] at h
      obtain ⟨l', h1, h⟩ := h
      obtain rfl := Except.ok.inj h
      simp

/-- How often the segment ends in one of the points, if it is part of the mask line. -/
def lineEnds (mask : ClipMask) (P : Point → Bool) (p q : Point) : Nat :=
  if depth mask p = 0 ∧ depth mask q = 0 then isAt P (some p) + isAt P (some q) else 0

theorem lineEnds_comm (mask : ClipMask) (P : Point → Bool) (p q : Point) : lineEnds mask P p q = lineEnds mask P q p := by
  unfold lineEnds
  simp only [and_comm, add_comm]

theorem clipRest_ends {m : Build} {mask : ClipMask} {P : Point → Bool} (hP : ∀ p, P p → depth mask p = 0)
    {pts : List Point} {prev : Point} {last : Option Point} {l : List Point} (hi : LastInv mask prev last)
    (h : clipRest m mask prev last pts = .ok l) :
    (0 < depth mask prev → sumAlong (lineEnds mask P) (prev :: l) + isAt P (prev :: l).getLast? +
        2 * turnsBackIn mask P (segs (prev :: pts)) ≤ landings m mask P (prev :: pts)) ∧
    (¬ 0 < depth mask prev → ∀ z, last = some z → sumAlong (lineEnds mask P) (z :: l) + isAt P (z :: l).getLast? +
        2 * turnsBackIn mask P (segs (prev :: pts)) + 2 * (if prev = z then entersFrom mask P prev pts else 0) ≤
      landings m mask P (prev :: pts) + isAt P (some z)) ∧
    (¬ 0 < depth mask prev → last = none →
      isAt P l.head? + isAt P l.getLast? + sumAlong (lineEnds mask P) l + 2 * turnsBackIn mask P (segs (prev :: pts)) ≤
        landings m mask P (prev :: pts)) := by
  induction pts generalizing prev last l with
  | nil =>
    obtain rfl := Except.ok.inj h
    refine ⟨fun h => ?_, fun _ z _ => by simp [segs, turnsBackIn, entersFrom, sumAlong],
      fun _ _ => by simp [isAt, segs, turnsBackIn, sumAlong]⟩
    have : ¬ P prev := fun h' => by have := hP _ h'; omega
    simp [isAt, this, segs, turnsBackIn, sumAlong]
  | cons q rest ih =>
    rw [landings_cons, turnsBackIn_cons]
    have off : depth mask q ≠ 0 → entersFrom mask P q rest = 0 := fun h => by
      have : ¬ P q := fun h' => h (hP _ h')
      simp [entersFrom, this]
    have ent : ¬ 0 < depth mask q → entersFrom mask P prev (q :: rest) = 0 := fun h => by simp [entersFrom, h]
    have noLine : ∀ a b, 0 < depth mask a → lineEnds mask P a b = 0 := fun a b h => by
      unfold lineEnds; rw [if_neg (by omega)]
    have noLine' : ∀ a b, 0 < depth mask b → lineEnds mask P a b = 0 := fun a b h => by
      unfold lineEnds; rw [if_neg (by omega)]
    have isLine : ∀ a b, lineEnds mask P a b ≤ isAt P (some a) + isAt P (some b) := fun a b => by
      unfold lineEnds; split <;> omega
    have hcross : ∀ x, mask.intersect m prev q = .ok x → Crosses mask prev q →
        (if PassesLine mask (prev, q) ∧ (clippedAt m mask (prev, q)).any P then 1 else 0) = isAt P (some x) := by
      intro x hx hc
      have hpass : PassesLine mask (prev, q) := by
        unfold PassesLine; rcases hc with h | h <;> simp only <;> omega
      rw [clippedAt_cross hx hc]
      simp [hpass, isAt]
    simp only [clipRest] at h
    split at h
    · rename_i q0
      have hq : ¬ 0 < depth mask q := by omega
      split at h
      · rename_i hprev
        rw [bind_ok] at h
        obtain ⟨l', h1, h⟩ := h
        obtain rfl := Except.ok.inj h
        refine ⟨fun _ => ?_, fun h => absurd hprev h, fun h => absurd hprev h⟩
        have hinv : LastInv mask q (some q) :=
          ⟨fun _ => rfl, fun _ x hx => by obtain rfl := Option.some.inj hx; exact q0⟩
        have hb := (ih hinv h1).2.1 hq q rfl
        have hland : (if PassesLine mask (prev, q) ∧ (clippedAt m mask (prev, q)).any P then 1 else 0) = isAt P (some q) := by
          have hpass : PassesLine mask (prev, q) := by simp [PassesLine, hprev, hq]
          have hat : clippedAt m mask (prev, q) = some q := by
            unfold clippedAt
            rw [if_neg (by simp; omega), if_pos (by simpa using q0)]
          simp [hpass, hat, isAt]
        rw [if_pos rfl] at hb
        rw [List.getLast?_cons_cons, if_pos hprev, hland, sumAlong, noLine _ _ hprev]
        omega
      · rename_i hprev
        have hinv' : LastInv mask q last := ⟨fun h' => by omega, fun _ => hi.2 hprev⟩
        obtain ⟨_, h2, h3⟩ := ih hinv' h
        rw [if_neg hprev, ent hq]
        refine ⟨fun h => absurd h hprev, fun _ z hz => ?_, fun _ hl => by have := h3 hq hl; omega⟩
        have := h2 hq z hz
        split <;> omega
    · rename_i q0
      rw [off q0, ite_self]
      split at h
      · rename_i hq
        have hinv : LastInv mask q (some q) := ⟨fun _ => rfl, fun h' => absurd hq h'⟩
        split at h
        · rename_i hprev
          rw [bind_ok] at h
          obtain ⟨x, hx, h⟩ := h
          rw [bind_ok] at h
          obtain ⟨l', h1, h⟩ := h
          obtain rfl := Except.ok.inj h
          have ha := (ih hinv h1).1 hq
          have hin : ¬ 0 < depth mask prev := by omega
          have : entersFrom mask P prev (q :: rest) = 0 := by
            have : ¬ P prev := fun h' => by have := hP _ h'; omega
            simp [entersFrom, this]
          rw [hcross x hx (.inl ⟨hprev, hq⟩), this]
          refine ⟨fun h => absurd h hin, fun _ z hz => ?_, fun _ _ => ?_⟩
          · rw [List.getLast?_cons_cons, List.getLast?_cons_cons, ite_self, sumAlong, sumAlong, noLine' _ _ hq]
            have := isLine z x
            omega
          · rw [List.getLast?_cons_cons, List.head?_cons, sumAlong, noLine' _ _ hq]; omega
        · rename_i hprev
          have land : depth mask prev = 0 →
              (if PassesLine mask (prev, q) ∧ (clippedAt m mask (prev, q)).any P then 1 else 0) = isAt P (some prev) := by
            intro h0
            have hpass : PassesLine mask (prev, q) := by simp only [PassesLine]; omega
            have hat : clippedAt m mask (prev, q) = some prev := by
              unfold clippedAt
              rw [if_pos (by simpa using h0)]
            simp [hpass, hat, isAt]
          have enter : depth mask prev = 0 → entersFrom mask P prev (q :: rest) = isAt P (some prev) := by
            intro _
            simp [entersFrom, isAt, hq]
          split at h
          · rename_i hl
            rw [bind_ok] at h
            obtain ⟨l', h1, h⟩ := h
            obtain rfl := Except.ok.inj h
            have ha := (ih hinv h1).1 hq
            rw [land hl.1, enter hl.1]
            refine ⟨fun h => absurd h (by omega), fun _ z hz => ?_, fun _ _ => ?_⟩
            · rw [List.getLast?_cons_cons, List.getLast?_cons_cons, sumAlong, sumAlong, noLine' _ _ hq,
                if_neg (fun h => hl.2 (by rw [hz, h]))]
              have := isLine z prev
              omega
            · rw [List.getLast?_cons_cons, List.head?_cons, sumAlong, noLine' _ _ hq]; omega
          · rename_i hl
            rw [bind_ok] at h
            obtain ⟨l', h1, h⟩ := h
            obtain rfl := Except.ok.inj h
            have ha := (ih hinv h1).1 hq
            refine ⟨fun _ => ?_, fun hn z hz => ?_, fun hn hnone => ?_⟩
            · rw [List.getLast?_cons_cons, sumAlong, noLine' _ _ hq]; omega
            · have h0 : depth mask prev = 0 := by omega
              have hz' : prev = z := by
                by_contra hne
                exact hl ⟨h0, by rw [hz]; simpa using Ne.symm hne⟩
              rw [land h0, enter h0, if_pos hz', List.getLast?_cons_cons, sumAlong, noLine' _ _ hq, hz']
              omega
            · exact absurd ⟨by omega, by rw [hnone]; simp⟩ hl
      · rename_i hq
        rw [ent hq]
        simp only [ite_self]
        split at h
        · rename_i hprev
          rw [bind_ok] at h
          obtain ⟨x, hx, h⟩ := h
          rw [bind_ok] at h
          obtain ⟨l', h1, h⟩ := h
          obtain rfl := Except.ok.inj h
          refine ⟨fun _ => ?_, fun h => absurd hprev h, fun h => absurd hprev h⟩
          have hxl := intersect_onLine hx
          have hinv : LastInv mask q (some x) :=
            ⟨fun h' => absurd h' hq, fun _ y hy => by obtain rfl := Option.some.inj hy; exact hxl⟩
          have hb := (ih hinv h1).2.1 hq x rfl
          rw [hcross x hx (.inr ⟨hprev, by omega⟩), List.getLast?_cons_cons, sumAlong, noLine _ _ hprev]
          omega
        · rename_i hprev
          have hinv' : LastInv mask q last := ⟨fun h' => by omega, fun _ => hi.2 hprev⟩
          obtain ⟨_, h2, h3⟩ := ih hinv' h
          refine ⟨fun h => absurd h hprev, fun _ z hz => ?_, fun _ hl => by have := h3 hq hl; omega⟩
          have := h2 hq z hz
          omega

/-- What is left of an edge ends in points of the mask line, or runs from there along
the line, no more often than the edge passes the line there, other than to turn back. -/
theorem clipEdge_ends {m : Build} {mask : ClipMask} {P : Point → Bool} (hP : ∀ p, P p → depth mask p = 0) {edge out : List Point}
    (h : clipEdge m mask edge = .ok out) :
    isAt P out.head? + isAt P out.getLast? + sumAlong (lineEnds mask P) out + 2 * turnsBackIn mask P (segs edge) ≤
      landings m mask P edge := by
  match edge, h with
  | [], h => obtain rfl := Except.ok.inj h; simp [isAt, segs, turnsBackIn, sumAlong]
  | [_], h => obtain rfl := Except.ok.inj h; simp [isAt, segs, turnsBackIn, sumAlong]
  | a :: b :: rest, h =>
    rw [clipEdge_eq] at h
    split at h
    · rename_i ha
      rw [bind_ok] at h
      obtain ⟨l, h1, h⟩ := h
      obtain rfl := Except.ok.inj h
      have := (clipRest_ends hP ⟨fun _ => rfl, fun h' => absurd ha h'⟩ h1).1 ha
      have hne : ¬ P a := fun h' => by have := hP _ h'; omega
      have h0 : isAt P (a :: l).head? = 0 := by simp [isAt, hne]
      omega
    · rename_i ha
      exact (clipRest_ends hP ⟨fun h' => absurd h' ha, fun _ x hx => by cases hx⟩ h).2.2 ha rfl

/-! ## Where what is left of an edge begins and ends -/

theorem clipRest_none {m : Build} {mask : ClipMask} {pts : List Point} {prev : Point} {last : Option Point}
    (h : clipRest m mask prev last pts = .ok []) (hprev : ¬ 0 < depth mask prev) :
    ∀ s ∈ segs (prev :: pts), ¬ 0 < depth mask s.1 ∧ ¬ 0 < depth mask s.2 := by
  induction pts generalizing prev with
  | nil => simp [segs]
  | cons q rest ih =>
    have hq : ¬ 0 < depth mask q := fun hq => clipRest_enters h hq rfl
    rw [segs]
    intro s hs
    rcases List.mem_cons.mp hs with rfl | hs
    · exact ⟨hprev, hq⟩
    · refine ih ?_ hq s hs
      simp only [clipRest, if_neg hprev, if_neg hq] at h
      split at h
      · exact h
      · exact h

/-- If nothing is left, nothing was inside. -/
theorem clipEdge_none {m : Build} {mask : ClipMask} {edge : List Point} (h : clipEdge m mask edge = .ok []) :
    ∀ s ∈ segs edge, ¬ 0 < depth mask s.1 ∧ ¬ 0 < depth mask s.2 := by
  match edge, h with
  | [], h => simp [segs]
  | [_], h => simp [segs]
  | a :: b :: rest, h =>
    rw [clipEdge_eq] at h
    split at h
    · rw [bind_ok] at h
      obtain ⟨l, _, h⟩ := h
      exact absurd (Except.ok.inj h) (by simp)
    · rename_i ha
      exact clipRest_none h ha

theorem clipEdge_starts {m : Build} {mask : ClipMask} {edge out : List Point} (h : clipEdge m mask edge = .ok out)
    {z b : Point} (hs : (segs edge).head? = some (z, b)) (hz : depth mask z = 0) (hb : 0 < depth mask b) :
    out.head? = some z := by
  match edge, h with
  | [], h => simp [segs] at hs
  | [_], h => simp [segs] at hs
  | a :: c :: rest, h =>
    rw [segs] at hs
    obtain ⟨rfl, rfl⟩ : a = z ∧ c = b := by simpa using hs
    rw [clipEdge_eq] at h
    rw [if_neg (by omega)] at h
    simp only [clipRest] at h
    rw [if_neg (by omega), if_pos hb, if_neg (by omega), if_pos ⟨hz, by simp⟩, bind_ok] at h
    obtain ⟨l, _, h⟩ := h
    obtain rfl := Except.ok.inj h
    rfl

theorem clipRest_stops {m : Build} {mask : ClipMask} {pts : List Point} {prev : Point} {last : Option Point} {l : List Point}
    (h : clipRest m mask prev last pts = .ok l) {a z : Point} (hs : (segs (prev :: pts)).getLast? = some (a, z))
    (ha : 0 < depth mask a) (hz : depth mask z = 0) : l.getLast? = some z := by
  induction pts generalizing prev last l with
  | nil => simp [segs] at hs
  | cons q rest ih =>
    have last_of : ∀ (A l' : List Point), l'.getLast? = some z → (A ++ l').getLast? = some z := by
      intro A l' h
      rw [List.getLast?_append, h]
      rfl
    cases rest with
    | nil =>
      obtain ⟨rfl, rfl⟩ : prev = a ∧ q = z := by simpa [segs] using hs
      simp only [clipRest] at h
      rw [if_pos hz, if_pos ha] at h
      rw [bind_ok] at h
      obtain ⟨l', h1, h⟩ := h
      obtain rfl := Except.ok.inj h
      obtain rfl := Except.ok.inj h1
      rfl
    | cons r rest =>
      have hs' : (segs (q :: r :: rest)).getLast? = some (a, z) := by
        rw [segs, segs, List.getLast?_cons_cons, ← segs] at hs
        exact hs
      rw [clipRest] at h
      split at h
      · split at h
        · rw [bind_ok] at h
          obtain ⟨l', h1, h⟩ := h
          obtain rfl := Except.ok.inj h
          exact last_of [q] l' (ih h1 hs')
        · exact ih h hs'
      · split at h
        · split at h
          · rw [bind_ok] at h
            obtain ⟨x, hx, h⟩ := h
            rw [bind_ok] at h
            obtain ⟨l', h1, h⟩ := h
            obtain rfl := Except.ok.inj h
            exact last_of [x, q] l' (ih h1 hs')
          · split at h
            · rw [bind_ok] at h
              obtain ⟨l', h1, h⟩ := h
              obtain rfl := Except.ok.inj h
              exact last_of [prev, q] l' (ih h1 hs')
            · rw [bind_ok] at h
              obtain ⟨l', h1, h⟩ := h
              obtain rfl := Except.ok.inj h
              exact last_of [q] l' (ih h1 hs')
        · split at h
          · rw [bind_ok] at h
            obtain ⟨x, hx, h⟩ := h
            rw [bind_ok] at h
            obtain ⟨l', h1, h⟩ := h
            obtain rfl := Except.ok.inj h
            exact last_of [x] l' (ih h1 hs')
          · exact ih h hs'

theorem clipEdge_stops {m : Build} {mask : ClipMask} {edge out : List Point} (h : clipEdge m mask edge = .ok out)
    {a z : Point} (hs : (segs edge).getLast? = some (a, z)) (ha : 0 < depth mask a) (hz : depth mask z = 0) :
    out.getLast? = some z := by
  match edge, h with
  | [], h => simp [segs] at hs
  | [_], h => simp [segs] at hs
  | p :: c :: rest, h =>
    rw [clipEdge_eq] at h
    split at h
    · rw [bind_ok] at h
      obtain ⟨l, h1, h⟩ := h
      obtain rfl := Except.ok.inj h
      have := clipRest_stops h1 hs ha hz
      cases l with
      | nil => cases this
      | cons x l => rw [List.getLast?_cons_cons]; exact this
    · exact clipRest_stops h hs ha hz

/-- The same for a path along an edge in either direction. -/
theorem facing_starts {m : Build} {mask : ClipMask} {edge out : List Point} (h : clipEdge m mask edge = .ok out) (d : Direction)
    {z b : Point} (hs : (segs (facing d edge)).head? = some (z, b)) (hz : depth mask z = 0) (hb : 0 < depth mask b) :
    (facing d out).head? = some z := by
  cases d with
  | forward => exact clipEdge_starts h hs hz hb
  | backward =>
    rw [facing, segs_reverse, List.head?_reverse, List.getLast?_map] at hs
    cases hl : (segs edge).getLast? with
    | none => rw [hl] at hs; cases hs
    | some s =>
      rw [hl] at hs
      have : s = (b, z) := by
        obtain ⟨s1, s2⟩ := s
        simpa [and_comm] using hs
      rw [facing, List.head?_reverse]
      exact clipEdge_stops h (by rw [hl, this]) hb hz

theorem facing_stops {m : Build} {mask : ClipMask} {edge out : List Point} (h : clipEdge m mask edge = .ok out) (d : Direction)
    {a z : Point} (hs : (segs (facing d edge)).getLast? = some (a, z)) (ha : 0 < depth mask a) (hz : depth mask z = 0) :
    (facing d out).getLast? = some z := by
  cases d with
  | forward => exact clipEdge_stops h hs ha hz
  | backward =>
    rw [facing, segs_reverse, List.getLast?_reverse, List.head?_map] at hs
    cases hl : (segs edge).head? with
    | none => rw [hl] at hs; cases hs
    | some s =>
      rw [hl] at hs
      have : s = (z, a) := by
        obtain ⟨s1, s2⟩ := s
        simpa [and_comm] using hs
      rw [facing, List.getLast?_reverse]
      exact clipEdge_starts h (by rw [hl, this]) hz ha

/-! ## Turns along several paths -/

/-- Whether the second segment turns back where the first one ends. -/
def joint (mask : ClipMask) (P : Point → Bool) : Option (Point × Point) → Option (Point × Point) → Nat
  | some s, some s' => turnsBack mask P s s'
  | _, _ => 0

theorem turnsBackIn_append (mask : ClipMask) (P : Point → Bool) (A B : List (Point × Point)) :
    turnsBackIn mask P (A ++ B) = turnsBackIn mask P A + joint mask P A.getLast? B.head? + turnsBackIn mask P B := by
  induction A with
  | nil => simp [turnsBackIn, joint]
  | cons a A ih =>
    cases A with
    | nil =>
      cases B with
      | nil => simp [turnsBackIn, joint]
      | cons b B => simp [turnsBackIn, joint]
    | cons a' A =>
      rw [List.cons_append, List.cons_append, turnsBackIn, ← List.cons_append, ih, turnsBackIn, List.getLast?_cons_cons]
      omega

theorem turnsBack_swap (mask : ClipMask) (P : Point → Bool) (s s' : Point × Point) :
    turnsBack mask P s'.swap s.swap = turnsBack mask P s s' := by
  unfold turnsBack
  congr 1
  simp only [Prod.fst_swap, Prod.snd_swap, eq_iff_iff]
  constructor
  · rintro ⟨h1, h2, h3, h4⟩; exact ⟨h4, h3 ▸ h2, h3.symm, h1⟩
  · rintro ⟨h1, h2, h3, h4⟩; exact ⟨h4, h3 ▸ h2, h3.symm, h1⟩

theorem turnsBackIn_reverse (mask : ClipMask) (P : Point → Bool) (l : List Point) :
    turnsBackIn mask P (segs l.reverse) = turnsBackIn mask P (segs l) := by
  rw [segs_reverse]
  generalize segs l = S
  induction S with
  | nil => rfl
  | cons s S ih =>
    rw [List.map_cons, List.reverse_cons, turnsBackIn_append, ih, List.getLast?_reverse]
    cases S with
    | nil => simp [turnsBackIn, joint]
    | cons s' S =>
      simp only [List.map_cons, List.head?_cons, joint, turnsBack_swap, turnsBackIn]
      omega

theorem turnsBackIn_facing (mask : ClipMask) (P : Point → Bool) (d : Direction) (l : List Point) :
    turnsBackIn mask P (segs (facing d l)) = turnsBackIn mask P (segs l) := by
  cases d with
  | forward => rfl
  | backward => exact turnsBackIn_reverse mask P l

/-! ## The plugs of a ring -/

/-- How often pieces run along the mask line from or to one of the points. -/
def lineUses (mask : ClipMask) (P : Point → Bool) (cs : List (List Point)) (ps : List Piece) : Nat :=
  (ps.map fun pc => sumAlong (lineEnds mask P) (pc.path cs)).sum

theorem lineUses_append (mask : ClipMask) (P : Point → Bool) (cs : List (List Point)) (a b : List Piece) :
    lineUses mask P cs (a ++ b) = lineUses mask P cs a + lineUses mask P cs b := by
  unfold lineUses
  rw [List.map_append, List.sum_append]

/-- A plug runs along the mask line. -/
theorem plugs_le_lineUses {mask : ClipMask} {P : Point → Bool} (cs : List (List Point)) {p q : Point} (hp : P p ∨ P q)
    (h : depth mask p = 0 ∧ depth mask q = 0) (ps : List Piece) :
    ps.countP (fun pc => pc.edge = .plug p q) ≤ lineUses mask P cs ps := by
  unfold lineUses
  induction ps with
  | nil => simp
  | cons pc ps ih =>
    rw [List.countP_cons, List.map_cons, List.sum_cons]
    split
    · rename_i he
      have he : pc.edge = .plug p q := by simpa using he
      rw [Piece.path, sumAlong_facing (lineEnds_comm mask P), he, PieceEdge.points]
      simp only [sumAlong, lineEnds, if_pos h]
      have : 1 ≤ isAt P (some p) + isAt P (some q) := by
        rcases hp with hp | hp <;> simp [isAt, hp]
      omega
    · omega

/-- Whether pieces meet in one of the points. -/
def meetAt (P : Point → Bool) (o1 o2 : Option Point) : Nat := if o1 = o2 ∧ o1.any P then 1 else 0

theorem gap_uses (mask : ClipMask) (P : Point → Bool) (cs : List (List Point)) (o1 o2 : Option Point) :
    lineUses mask P cs (gap o1 o2) + 2 * meetAt P o1 o2 ≤ isAt P o1 + isAt P o2 := by
  unfold gap meetAt
  match o1, o2 with
  | none, _ => simp [lineUses]
  | some a, none => simp [lineUses]
  | some a, some b =>
    simp only [Option.some.injEq]
    by_cases hab : a = b
    · subst hab
      simp only [if_true, true_and, isAt]
      simp only [lineUses, List.map_nil, List.sum_nil]
      split <;> omega
    · simp only [hab, false_and, if_false]
      have isLine : ∀ a b, lineEnds mask P a b ≤ isAt P (some a) + isAt P (some b) := fun a b => by
        unfold lineEnds; split <;> omega
      have h := isLine a b
      unfold lineUses plugPiece
      split
      · simp only [List.map_cons, List.map_nil, List.sum_cons, List.sum_nil, Piece.path, PieceEdge.points, facing, sumAlong]
        omega
      · simp only [List.map_cons, List.map_nil, List.sum_cons, List.sum_nil, Piece.path, PieceEdge.points, facing,
          List.reverse_cons, List.reverse_nil, List.nil_append, List.cons_append, sumAlong]
        omega

/-- The points of the edge of a directed edge. -/
def storedPoints (edges : List TopoEdge) (de : DirectedEdge) : List Point := (edges[de.edge]?.map TopoEdge.points).getD []

theorem clipped_stored {m : Build} {mask : ClipMask} {edges : List TopoEdge} {cs : List (List Point)}
    (hcs : ClippedBy m mask edges cs) (de : DirectedEdge) :
    clipEdge m mask (storedPoints edges de) = .ok (cs[de.edge]?.getD []) := by
  unfold storedPoints
  by_cases hlt : de.edge < cs.length
  · have hlt' : de.edge < edges.length := by rw [hcs.length_eq]; exact hlt
    have := (List.forall₂_iff_get.mp hcs).2 de.edge hlt' hlt
    rw [List.getElem?_eq_getElem hlt, List.getElem?_eq_getElem hlt']
    exact this
  · rw [List.getElem?_eq_none (l := cs) (by omega), List.getElem?_eq_none (l := edges) (by rw [hcs.length_eq]; omega)]
    rfl

/-- The path of a directed edge. -/
def storedPath (edges : List TopoEdge) (de : DirectedEdge) : List Point := facing de.direction (storedPoints edges de)

/-- If a line comes from inside to one of the points, what is left of it ends there. -/
def EndsWith (mask : ClipMask) (P : Point → Bool) (s : Option (Point × Point)) (o : Option Point) : Prop :=
  ∀ a z, s = some (a, z) → 0 < depth mask a → P z → o = some z

theorem endOf_visible (cs : List (List Point)) (pc : Piece) (ps : List Piece) (prev : Option Point)
    (h : ∀ pc' ∈ pc :: ps, pc'.path cs ≠ []) :
    (endOf cs (pc :: ps)).or prev = (endOf cs ps).or (pc.path cs).getLast? := by
  unfold endOf
  cases ps with
  | nil =>
    obtain ⟨z, hz⟩ := Option.isSome_iff_exists.mp (List.getLast?_isSome.mpr (h pc (by simp)))
    simp [hz]
  | cons f rest =>
    rw [List.getLast?_cons_cons]
    have hmem : (f :: rest).getLast (by simp) ∈ f :: rest := List.getLast_mem _
    obtain ⟨z, hz⟩ := Option.isSome_iff_exists.mp (List.getLast?_isSome.mpr (h _ (List.mem_cons_of_mem _ hmem)))
    rw [List.getLast?_eq_some_getLast (by simp)]
    simp [hz]

theorem visible_path {cs : List (List Point)} {de : DirectedEdge} {pc : Piece} (h : visiblePiece cs de = some pc) :
    pc.path cs = facing de.direction (cs[de.edge]?.getD []) ∧ pc.path cs ≠ [] ∧ ∀ p q, pc.edge ≠ .plug p q := by
  unfold visiblePiece at h
  split at h
  · cases h
  · rename_i hne
    obtain rfl := Option.some.inj h
    refine ⟨rfl, ?_, by simp⟩
    unfold Piece.path
    cases de.direction <;> simpa [facing, PieceEdge.points] using hne

theorem bridge_turns {m : Build} {mask : ClipMask} {edges : List TopoEdge} {cs : List (List Point)}
    (hcs : ClippedBy m mask edges cs) {P : Point → Bool} (hP : ∀ p, P p → depth mask p = 0)
    (des : List DirectedEdge) (before : List (Point × Point)) (prev : Option Point)
    (hR : EndsWith mask P before.getLast? prev) :
    lineUses mask P cs (bridge cs prev (des.filterMap (visiblePiece cs))) +
        2 * turnsBackIn mask P (before ++ des.flatMap fun de => segs (storedPath edges de)) +
        isAt P ((endOf cs (des.filterMap (visiblePiece cs))).or prev) +
        (if prev = none then isAt P (startOf cs (des.filterMap (visiblePiece cs))) else 0) ≤
      2 * turnsBackIn mask P before + isAt P prev + (des.map fun de => landings m mask P (storedPoints edges de)).sum ∧
    EndsWith mask P (before ++ des.flatMap fun de => segs (storedPath edges de)).getLast?
      ((endOf cs (des.filterMap (visiblePiece cs))).or prev) := by
  induction des generalizing before prev with
  | nil =>
    refine ⟨?_, by simpa [endOf] using hR⟩
    simp only [List.filterMap_nil, bridge, lineUses, List.flatMap_nil, List.append_nil, endOf, startOf,
      List.getLast?_nil, Option.bind_none, Option.none_or, List.head?_nil, List.map_nil, List.sum_nil]
    have : isAt P none = 0 := rfl
    split <;> omega
  | cons de des ih =>
    have hclip := clipped_stored hcs de
    rw [List.flatMap_cons, ← List.append_assoc, List.map_cons, List.sum_cons]
    have hsplit := turnsBackIn_append mask P before (segs (storedPath edges de))
    have hface : turnsBackIn mask P (segs (storedPath edges de)) = turnsBackIn mask P (segs (storedPoints edges de)) :=
      turnsBackIn_facing mask P de.direction _
    have hends := clipEdge_ends hP hclip
    cases hv : visiblePiece cs de with
    | none =>
      rw [List.filterMap_cons_none hv]
      have hnil : cs[de.edge]?.getD [] = [] := by
        unfold visiblePiece at hv
        split at hv
        · assumption
        · cases hv
      rw [hnil] at hclip hends
      have hout : ∀ s ∈ segs (storedPath edges de), ¬ 0 < depth mask s.1 ∧ ¬ 0 < depth mask s.2 := by
        have := clipEdge_none hclip
        intro s hs
        unfold storedPath at hs
        cases hd : de.direction with
        | forward => rw [hd] at hs; exact this s hs
        | backward =>
          rw [hd, facing, segs_reverse, List.mem_reverse, List.mem_map] at hs
          obtain ⟨s', hs', rfl⟩ := hs
          exact ⟨(this s' hs').2, (this s' hs').1⟩
      have hR' : EndsWith mask P (before ++ segs (storedPath edges de)).getLast? prev := by
        intro a z haz ha hz
        rw [List.getLast?_append] at haz
        cases hl : (segs (storedPath edges de)).getLast? with
        | none => rw [hl] at haz; exact hR a z (by simpa using haz) ha hz
        | some s =>
          rw [hl] at haz
          obtain rfl : s = (a, z) := by simpa using haz
          exact absurd ha (hout _ (List.mem_of_getLast? hl)).1
      obtain ⟨h1, h2⟩ := ih (before ++ segs (storedPath edges de)) prev hR'
      refine ⟨?_, h2⟩
      have hj : joint mask P before.getLast? (segs (storedPath edges de)).head? = 0 := by
        unfold joint
        split
        · rename_i s s' _ hs'
          unfold turnsBack
          rw [if_neg]
          rintro ⟨_, _, _, h⟩
          exact (hout s' (List.mem_of_head? hs')).2 h
        · rfl
      omega
    | some pc =>
      obtain ⟨hpath, hne, hnp⟩ := visible_path hv
      rw [List.filterMap_cons_some hv]
      have hall : ∀ pc' ∈ pc :: des.filterMap (visiblePiece cs), pc'.path cs ≠ [] := by
        intro pc' hpc'
        rcases List.mem_cons.mp hpc' with rfl | h
        · exact hne
        · obtain ⟨de', _, h⟩ := List.mem_filterMap.mp h
          exact (visible_path h).2.1
      rw [endOf_visible cs pc _ prev hall, bridge, lineUses_append]
      have hplug : lineUses mask P cs (pc :: bridge cs (pc.path cs).getLast? (des.filterMap (visiblePiece cs))) =
          sumAlong (lineEnds mask P) (cs[de.edge]?.getD []) +
            lineUses mask P cs (bridge cs (pc.path cs).getLast? (des.filterMap (visiblePiece cs))) := by
        unfold lineUses
        rw [List.map_cons, List.sum_cons, hpath, sumAlong_facing (lineEnds_comm mask P)]
      have hR' : EndsWith mask P (before ++ segs (storedPath edges de)).getLast? (pc.path cs).getLast? := by
        intro a z haz ha hz
        rw [List.getLast?_append] at haz
        cases hl : (segs (storedPath edges de)).getLast? with
        | none =>
          -- a visible edge has segments
          exfalso
          have h0 : segs (storedPath edges de) = [] := List.getLast?_eq_none_iff.mp hl
          have h1 : segs (storedPoints edges de) = [] := by
            unfold storedPath at h0
            cases hd : de.direction with
            | forward => rw [hd] at h0; exact h0
            | backward => rw [hd, facing, segs_reverse] at h0; simpa using h0
          have h2 : cs[de.edge]?.getD [] = [] := by
            revert hclip h1
            generalize storedPoints edges de = pts
            intro hclip h1
            match pts, hclip with
            | [], h => exact (Except.ok.inj h).symm
            | [_], h => exact (Except.ok.inj h).symm
            | a :: b :: l, _ => simp [segs] at h1
          rw [hpath, h2] at hne
          exact hne (by cases de.direction <;> rfl)
        | some s =>
          rw [hl] at haz
          obtain rfl : s = (a, z) := by simpa using haz
          rw [hpath]
          exact facing_stops hclip de.direction hl ha (hP z hz)
      obtain ⟨h1, h2⟩ := ih (before ++ segs (storedPath edges de)) (pc.path cs).getLast? hR'
      refine ⟨?_, h2⟩
      have hj : joint mask P before.getLast? (segs (storedPath edges de)).head? ≤ meetAt P prev (pc.path cs).head? := by
        unfold joint
        split
        · rename_i s s' hs hs'
          unfold turnsBack
          split
          · rename_i h
            obtain ⟨ha, hz, heq, hb⟩ := h
            have e1 : prev = some s.2 := hR s.1 s.2 hs ha hz
            have e2 : (pc.path cs).head? = some s.2 := by
              rw [hpath, heq]
              exact facing_starts hclip de.direction (z := s'.1) (b := s'.2) hs' (hP _ (heq ▸ hz)) hb
            rw [e1, e2]
            simp [meetAt, hz]
          · omega
        · omega
      have hg := gap_uses mask P cs prev (pc.path cs).head?
      have hhl : isAt P (pc.path cs).head? + isAt P (pc.path cs).getLast? =
          isAt P (cs[de.edge]?.getD []).head? + isAt P (cs[de.edge]?.getD []).getLast? := by
        rw [hpath]
        cases de.direction with
        | forward => rfl
        | backward => rw [facing, List.head?_reverse, List.getLast?_reverse, add_comm]
      have hsome : ¬ (pc.path cs).getLast? = none := by
        rw [List.getLast?_eq_none_iff]; exact hne
      rw [if_neg hsome] at h1
      have hst : startOf cs (pc :: des.filterMap (visiblePiece cs)) = (pc.path cs).head? := by simp [startOf]
      rw [hst]
      have hslack : (if prev = none then isAt P (pc.path cs).head? else 0) + lineUses mask P cs (gap prev (pc.path cs).head?) +
          2 * joint mask P before.getLast? (segs (storedPath edges de)).head? ≤ isAt P prev + isAt P (pc.path cs).head? := by
        by_cases hpn : prev = none
        · have h0 : joint mask P before.getLast? (segs (storedPath edges de)).head? = 0 := by
            have : meetAt P prev (pc.path cs).head? = 0 := by rw [hpn]; simp [meetAt]
            omega
          rw [h0, hpn]
          simp [gap, lineUses]
        · rw [if_neg hpn]
          omega
      rw [hplug]
      omega

theorem starts_with {m : Build} {mask : ClipMask} {edges : List TopoEdge} {cs : List (List Point)}
    (hcs : ClippedBy m mask edges cs) (des : List DirectedEdge) {z b : Point}
    (hs : (des.flatMap fun de => segs (storedPath edges de)).head? = some (z, b)) (hz : depth mask z = 0) (hb : 0 < depth mask b) :
    startOf cs (des.filterMap (visiblePiece cs)) = some z := by
  induction des with
  | nil => cases hs
  | cons de des ih =>
    have hclip := clipped_stored hcs de
    rw [List.flatMap_cons, List.head?_append] at hs
    cases hh : (segs (storedPath edges de)).head? with
    | none =>
      rw [hh] at hs
      have h0 : segs (storedPath edges de) = [] := List.head?_eq_none_iff.mp hh
      have h1 : segs (storedPoints edges de) = [] := by
        unfold storedPath at h0
        cases hd : de.direction with
        | forward => rw [hd] at h0; exact h0
        | backward => rw [hd, facing, segs_reverse] at h0; simpa using h0
      have h2 : cs[de.edge]?.getD [] = [] := by
        revert hclip h1
        generalize storedPoints edges de = pts
        intro hclip h1
        match pts, hclip with
        | [], h => exact (Except.ok.inj h).symm
        | [_], h => exact (Except.ok.inj h).symm
        | a :: b :: l, _ => simp [segs] at h1
      rw [List.filterMap_cons_none (by unfold visiblePiece; rw [if_pos h2])]
      exact ih (by simpa using hs)
    | some s =>
      rw [hh] at hs
      obtain rfl : s = (z, b) := by simpa using hs
      have := facing_starts hclip de.direction hh hz hb
      have hne : cs[de.edge]?.getD [] ≠ [] := by
        intro h; rw [h] at this; cases hd : de.direction <;> simp [facing, hd] at this
      have hv : visiblePiece cs de = some ⟨.kept de.edge, de.direction⟩ := by unfold visiblePiece; rw [if_neg hne]
      rw [List.filterMap_cons_some hv]
      simp only [startOf, List.head?_cons, Option.bind_some]
      rw [(visible_path hv).1]
      exact this

theorem turns_lin (mask : ClipMask) (P : Point → Bool) (hP : ∀ p, P p → depth mask p = 0) (l : List (Point × Point))
    (x : Point × Point) (a : Point × Point) :
    ((a :: l).zip (l ++ [x])).countP (fun w => TouchesLine mask w ∧ P w.1.2) = turnsBackIn mask P (a :: l ++ [x]) := by
  have one : ∀ s s' : Point × Point, (if TouchesLine mask (s, s') ∧ P s.2 then 1 else 0) = turnsBack mask P s s' := by
    intro s s'
    unfold turnsBack TouchesLine
    congr 1
    simp only [eq_iff_iff]
    constructor
    · rintro ⟨⟨h1, h2, h3, h4⟩, h5⟩; exact ⟨h1, h5, h3, h4⟩
    · rintro ⟨h1, h5, h3, h4⟩; exact ⟨⟨h1, hP _ h5, h3, h4⟩, h5⟩
  induction l generalizing a with
  | nil =>
    simp only [List.nil_append, List.zip_cons_cons, List.zip_nil_right, List.countP_cons, List.countP_nil, decide_eq_true_eq,
      List.cons_append, turnsBackIn, one]
    omega
  | cons b l ih =>
    rw [List.cons_append, List.zip_cons_cons, List.countP_cons, ih]
    simp only [decide_eq_true_eq, one, List.cons_append, turnsBackIn]
    omega

theorem turns_count (mask : ClipMask) (P : Point → Bool) (hP : ∀ p, P p → depth mask p = 0) (l : List (Point × Point)) :
    (turns l).countP (fun w => TouchesLine mask w ∧ P w.1.2) = turnsBackIn mask P l + joint mask P l.getLast? l.head? := by
  cases l with
  | nil => rfl
  | cons a l =>
    have : turns (a :: l) = (a :: l).zip (l ++ [a]) := by simp [turns]
    rw [this, turns_lin mask P hP, turnsBackIn_append]
    simp [turnsBackIn]

/-- A clipped ring runs along the mask line from one of the points no more often than
its edges pass the line there, other than to turn back. -/
theorem clippedPieces_uses {m : Build} {mask : ClipMask} {edges : List TopoEdge} {cs : List (List Point)}
    (hcs : ClippedBy m mask edges cs) {P : Point → Bool} (hP : ∀ p, P p → depth mask p = 0)
    (ring : TopoRing) :
    lineUses mask P cs (clippedPieces cs ring) +
        2 * (turns (ring.directedEdges.flatMap fun de => segs (storedPath edges de))).countP (fun w => TouchesLine mask w ∧ P w.1.2) ≤
      (ring.directedEdges.map fun de => landings m mask P (storedPoints edges de)).sum := by
  obtain ⟨h1, h2⟩ := bridge_turns hcs hP ring.directedEdges [] none (by intro a z h; cases h)
  rw [turns_count mask P hP]
  unfold clippedPieces closeUp
  rw [lineUses_append]
  simp only [List.nil_append, Option.or_none, if_true] at h1 h2
  have hn : isAt P none = 0 := rfl
  have h0 : turnsBackIn mask P [] = 0 := rfl
  have hg := gap_uses mask P cs (endOf cs (ring.directedEdges.filterMap (visiblePiece cs)))
    (startOf cs (ring.directedEdges.filterMap (visiblePiece cs)))
  have hj : joint mask P (ring.directedEdges.flatMap fun de => segs (storedPath edges de)).getLast?
      (ring.directedEdges.flatMap fun de => segs (storedPath edges de)).head? ≤
      meetAt P (endOf cs (ring.directedEdges.filterMap (visiblePiece cs)))
        (startOf cs (ring.directedEdges.filterMap (visiblePiece cs))) := by
    unfold joint
    split
    · rename_i s s' hs hs'
      unfold turnsBack
      split
      · rename_i h
        obtain ⟨ha, hz, heq, hb⟩ := h
        have e1 := h2 s.1 s.2 hs ha hz
        have e2 := starts_with hcs ring.directedEdges (z := s'.1) (b := s'.2) hs' (hP _ (heq ▸ hz)) hb
        rw [e1, e2, heq]
        simp [meetAt, ← heq, hz]
      · omega
    · omega
  omega

end TopoGeo
