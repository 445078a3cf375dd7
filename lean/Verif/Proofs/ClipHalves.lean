import Mathlib.Data.List.ReduceOption
import Mathlib.Tactic.Linarith
import Mathlib.Tactic.Ring
import Verif.Spec.ClipHalves
import Verif.Props.Clip
import Verif.Props.ClipTopology
/-!
# Areas measured from the mask line

The area of a closed path is the sum, over its segments, of the area between the
segment and the mask line. Segments on the line contribute nothing.
-/

namespace TopoGeo

open Spec

/-- Twice the signed area between a segment and the mask line. -/
def strip (mask : ClipMask) (p q : Point) : Int :=
  (tested mask p - bound mask + (tested mask q - bound mask)) * (other mask q - other mask p)

/-- The sum of `strip` along a path. -/
def strips (mask : ClipMask) : List Point → Int
  | p :: q :: rest => strip mask p q + strips mask (q :: rest)
  | _ => 0

/-- The sum of `strip` along several paths. -/
def stripsAll (mask : ClipMask) (paths : List (List Point)) : Int := (paths.map (strips mask)).sum

/-- The orientation of the coordinates a mask looks at. -/
def sigma : ClipMask → Int
  | .minX _ | .maxX _ => 1
  | .minY _ | .maxY _ => -1

/-- A potential: what `strip` and `cross` differ by. -/
def potential (mask : ClipMask) (p : Point) : Int := (tested mask p - 2 * bound mask) * other mask p

theorem cutStrip_eq (mask : ClipMask) (p q : Point) :
    strip mask p q = sigma mask * cross p q + (potential mask q - potential mask p) := by
  unfold strip potential cross
  cases mask <;> simp only [sigma, tested, other, bound] <;> ring

theorem cutStrips_eq (mask : ClipMask) (l : List Point) (p q : Point) (hp : l.head? = some p) (hq : l.getLast? = some q) :
    strips mask l = sigma mask * shoelace l + (potential mask q - potential mask p) := by
  induction l generalizing p with
  | nil => cases hp
  | cons a l ih =>
    obtain rfl : a = p := by simpa using hp
    cases l with
    | nil =>
      obtain rfl : a = q := by simpa using hq
      simp [strips, shoelace]
    | cons b rest =>
      rw [strips, shoelace, cutStrip_eq, ih b rfl (by simpa using hq)]
      ring

theorem stripsAll_leads (mask : ClipMask) (paths : List (List Point)) (a b : Point) (h : Leads a paths b) :
    stripsAll mask paths = sigma mask * shoelaceEdges paths + (potential mask b - potential mask a) := by
  induction paths generalizing a with
  | nil =>
    obtain rfl : a = b := h
    simp [stripsAll, shoelaceEdges]
  | cons e rest ih =>
    obtain ⟨h1, c, h2, h3⟩ := h
    have := ih c h3
    unfold stripsAll shoelaceEdges at *
    rw [List.map_cons, List.sum_cons, List.map_cons, List.sum_cons, this, cutStrips_eq mask e a c h1 h2]
    ring

theorem stripsAll_closed {mask : ClipMask} {paths : List (List Point)} (h : ClosedRing paths) :
    stripsAll mask paths = sigma mask * shoelaceEdges paths := by
  obtain ⟨_, a, h⟩ := h
  rw [stripsAll_leads mask paths a a h]
  ring

theorem sigma_cancel {mask : ClipMask} {a b : Int} (h : sigma mask * a = sigma mask * b) : a = b := by
  cases mask <;> simp only [sigma] at h <;> omega

theorem strip_comm (mask : ClipMask) (p q : Point) : strip mask q p = - strip mask p q := by
  unfold strip; ring

theorem strips_append (mask : ClipMask) (l l' : List Point) (p : Point) :
    strips mask (l ++ p :: l') = strips mask (l ++ [p]) + strips mask (p :: l') := by
  induction l with
  | nil => simp [strips]
  | cons a l ih =>
    cases l with
    | nil => simp [strips]
    | cons b l =>
      simp only [List.cons_append, strips] at ih ⊢
      rw [ih]
      ring

theorem strips_reverse (mask : ClipMask) (l : List Point) : strips mask l.reverse = - strips mask l := by
  induction l with
  | nil => simp [strips]
  | cons a l ih =>
    cases l with
    | nil => simp [strips]
    | cons b l =>
      rw [List.reverse_cons, List.reverse_cons, List.append_assoc, List.singleton_append, strips_append,
        ← List.reverse_cons, ih]
      simp only [strips]
      rw [strip_comm mask a b]
      ring

theorem strips_facing (mask : ClipMask) (d : Direction) (l : List Point) :
    strips mask (facing d l) = (match d with | .forward => 1 | .backward => -1) * strips mask l := by
  cases d
  · simp [facing]
  · simp [facing, strips_reverse]

theorem strip_onLine {mask : ClipMask} {p q : Point} (hp : depth mask p = 0) (hq : depth mask q = 0) : strip mask p q = 0 := by
  rw [depth_zero_iff] at hp hq
  unfold strip
  rw [hp, hq]
  ring

/-- What a mask sees of a segment, measured from the line. -/
def seen (mask : ClipMask) (X : Point → Point → Point) (p q : Point) : Int := strips mask (visiblePart mask X p q)

/-- The sum along a path. -/
def seenAll (mask : ClipMask) (X : Point → Point → Point) : List Point → Int
  | p :: q :: rest => seen mask X p q + seenAll mask X (q :: rest)
  | _ => 0

theorem seen_self (mask : ClipMask) (p : Point) : strip mask p p = 0 := by
  unfold strip; ring

theorem strips_last (mask : ClipMask) (last : Option Point) (x : Point) (l : List Point)
    (h : ∀ y, last = some y → strip mask y x = 0) : strips mask (last.toList ++ x :: l) = strips mask (x :: l) := by
  cases last with
  | none => rfl
  | some y =>
    simp only [Option.toList_some, List.singleton_append, strips]
    rw [h y rfl]
    ring

theorem clipRest_strips {m : Build} {mask : ClipMask} {pts : List Point} {prev : Point} {last : Option Point} {l : List Point}
    (hi : LastInv mask prev last) (h : clipRest m mask prev last pts = .ok l) :
    strips mask (last.toList ++ l) = seenAll mask (crossing m mask) (prev :: pts) := by
  induction pts generalizing prev last l with
  | nil =>
    obtain rfl := Except.ok.inj h
    cases last <;> simp [strips, seenAll]
  | cons q rest ih =>
    rw [seenAll]
    simp only [clipRest] at h
    have hseen : ¬ 0 < depth mask prev → ¬ 0 < depth mask q → seen mask (crossing m mask) prev q = 0 := by
      intro h1 h2
      unfold seen visiblePart
      rw [if_neg (by omega)]
      rfl
    have hx : ∀ x, mask.intersect m prev q = .ok x → crossing m mask prev q = x := by
      intro x hx
      unfold crossing
      rw [hx]
    by_cases hq0 : depth mask q = 0
    · rw [if_pos hq0] at h
      have hinv : LastInv mask q (some q) :=
        ⟨fun _ => rfl, fun _ x hx => by obtain rfl := Option.some.inj hx; exact hq0⟩
      by_cases hp : 0 < depth mask prev
      · rw [if_pos hp, bind_ok] at h
        obtain ⟨l', h1, h⟩ := h
        obtain rfl := Except.ok.inj h
        rw [hi.1 hp, ← ih hinv h1]
        unfold seen visiblePart
        rw [if_pos (Or.inl hp), if_neg (by omega), if_neg (by omega)]
        simp [strips]
      · rw [if_neg hp] at h
        have hinv' : LastInv mask q last := ⟨fun h' => by omega, fun _ => hi.2 hp⟩
        rw [ih hinv' h, hseen hp (by omega)]
        ring
    · rw [if_neg hq0] at h
      by_cases hq : 0 < depth mask q
      · rw [if_pos hq] at h
        have hinv : LastInv mask q (some q) := ⟨fun _ => rfl, fun h' => absurd hq h'⟩
        by_cases hp : depth mask prev < 0
        · rw [if_pos hp, bind_ok] at h
          obtain ⟨x, h0, h⟩ := h
          rw [bind_ok] at h
          obtain ⟨l', h1, h⟩ := h
          obtain rfl := Except.ok.inj h
          have hxl := intersect_onLine h0
          rw [strips_last mask last x _ fun y hy => strip_onLine (hi.2 (by omega) y hy) hxl, ← ih hinv h1]
          unfold seen visiblePart
          rw [if_pos (Or.inr hq), if_pos hp, hx x h0]
          simp [strips]
        · rw [if_neg hp] at h
          have hv : seen mask (crossing m mask) prev q = strip mask prev q := by
            unfold seen visiblePart
            rw [if_pos (Or.inr hq), if_neg hp, if_neg (by omega)]
            simp [strips]
          rw [hv]
          by_cases hc : depth mask prev = 0 ∧ last ≠ some prev
          · rw [if_pos hc, bind_ok] at h
            obtain ⟨l', h1, h⟩ := h
            obtain rfl := Except.ok.inj h
            rw [strips_last mask last prev _ fun y hy => strip_onLine (hi.2 (by omega) y hy) hc.1, ← ih hinv h1]
            simp [strips]
          · rw [if_neg hc, bind_ok] at h
            obtain ⟨l', h1, h⟩ := h
            obtain rfl := Except.ok.inj h
            have hl : last = some prev := by
              by_cases hp0 : 0 < depth mask prev
              · exact hi.1 hp0
              · by_contra hl
                exact hc ⟨by omega, hl⟩
            rw [hl, ← ih hinv h1]
            simp [strips]
      · rw [if_neg hq] at h
        by_cases hp : 0 < depth mask prev
        · rw [if_pos hp, bind_ok] at h
          obtain ⟨x, h0, h⟩ := h
          rw [bind_ok] at h
          obtain ⟨l', h1, h⟩ := h
          obtain rfl := Except.ok.inj h
          have hxl := intersect_onLine h0
          have hinv : LastInv mask q (some x) := ⟨fun h' => absurd h' hq, fun _ y hy => by obtain rfl := Option.some.inj hy; exact hxl⟩
          rw [hi.1 hp, ← ih hinv h1]
          unfold seen visiblePart
          rw [if_pos (Or.inl hp), if_neg (by omega), if_pos (by omega), hx x h0]
          simp [strips]
        · rw [if_neg hp] at h
          have hinv' : LastInv mask q last := ⟨fun h' => by omega, fun _ => hi.2 hp⟩
          rw [ih hinv' h, hseen hp (by omega)]
          ring

theorem clipEdge_strips {m : Build} {mask : ClipMask} {edge out : List Point} (h : clipEdge m mask edge = .ok out) :
    strips mask out = seenAll mask (crossing m mask) edge := by
  match edge, h with
  | [], h => obtain rfl := Except.ok.inj h; rfl
  | [_], h => obtain rfl := Except.ok.inj h; rfl
  | p :: q :: rest, h =>
    rw [clipEdge_eq] at h
    split at h
    · rename_i hp
      rw [bind_ok] at h
      obtain ⟨l', h1, h⟩ := h
      obtain rfl := Except.ok.inj h
      exact clipRest_strips (last := some p) ⟨fun _ => rfl, fun h' => absurd hp h'⟩ h1
    · rename_i hp
      exact clipRest_strips (last := none) ⟨fun h' => absurd h' hp, fun _ x hx => by cases hx⟩ h

/-! ## Both sides of the line -/

theorem tested_mirror (mask : ClipMask) (p : Point) : tested (mirror mask) p = tested mask p := by cases mask <;> rfl
theorem other_mirror (mask : ClipMask) (p : Point) : other (mirror mask) p = other mask p := by cases mask <;> rfl
theorem bound_mirror (mask : ClipMask) : bound (mirror mask) = bound mask := by cases mask <;> rfl
theorem depth_mirror (mask : ClipMask) (p : Point) : depth (mirror mask) p = - depth mask p := by
  cases mask <;> simp only [mirror, depth] <;> omega
theorem intersect_mirror (m : Build) (mask : ClipMask) (p q : Point) :
    (mirror mask).intersect m p q = mask.intersect m p q := by cases mask <;> rfl
theorem crossing_mirror (m : Build) (mask : ClipMask) : crossing m (mirror mask) = crossing m mask := by
  funext p q
  unfold crossing
  rw [intersect_mirror]
theorem strip_mirror (mask : ClipMask) (p q : Point) : strip (mirror mask) p q = strip mask p q := by
  unfold strip
  simp only [tested_mirror, other_mirror, bound_mirror]
theorem strips_mirror (mask : ClipMask) (l : List Point) : strips (mirror mask) l = strips mask l := by
  induction l with
  | nil => rfl
  | cons a l ih =>
    cases l with
    | nil => rfl
    | cons b l => rw [strips, strips, strip_mirror, ih]

/-- A segment, measured from the line, is what the two sides see of it, but for the
rounding of the crossing point. -/
theorem seen_both (mask : ClipMask) (X : Point → Point → Point) (p q : Point) (hX : Crosses mask p q → depth mask (X p q) = 0) :
    seen mask X p q + seen (mirror mask) X p q = strip mask p q +
      if Crosses mask p q then
        (bound mask - tested mask p) * (other mask q - other mask p) - (other mask (X p q) - other mask p) * (tested mask q - tested mask p) else 0 := by
  unfold seen
  rw [strips_mirror]
  unfold visiblePart
  simp only [depth_mirror]
  by_cases hc : Crosses mask p q
  · have hz := (depth_zero_iff mask _).mp (hX hc)
    rw [if_pos hc]
    rcases hc with ⟨h1, h2⟩ | ⟨h1, h2⟩
    · rw [if_pos (Or.inr h2), if_pos h1, if_pos (Or.inl (by omega)), if_neg (by omega), if_pos (by omega)]
      simp only [strips, strip, hz]
      ring
    · rw [if_pos (Or.inl h1), if_neg (by omega), if_pos h2, if_pos (Or.inr (by omega)), if_pos (by omega)]
      simp only [strips, strip, hz]
      ring
  · rw [if_neg hc]
    have hc' : ¬ (depth mask p < 0 ∧ 0 < depth mask q) ∧ ¬ (0 < depth mask p ∧ depth mask q < 0) := by
      unfold Crosses at hc
      exact ⟨fun h => hc (Or.inl h), fun h => hc (Or.inr h)⟩
    by_cases h1 : 0 < depth mask p ∨ 0 < depth mask q
    · rw [if_pos h1, if_neg (by omega), if_neg (by omega), if_neg (by omega)]
      simp [strips]
    · rw [if_neg h1]
      by_cases h2 : 0 < - depth mask p ∨ 0 < - depth mask q
      · rw [if_pos h2, if_neg (by omega), if_neg (by omega)]
        simp [strips]
      · rw [if_neg h2, strip_onLine (by omega) (by omega)]
        simp [strips]

theorem seenAll_both (m : Build) (mask : ClipMask) (edge : List Point)
    (hX : ∀ p q, [p, q] ∈ pairs edge → Crosses mask p q →
      InI64 ((bound mask - tested mask p) * (other mask q - other mask p))) :
    (seenAll mask (crossing m mask) edge + seenAll (mirror mask) (crossing m mask) edge - strips mask edge).natAbs ≤
      roundingOf mask edge := by
  induction edge with
  | nil => simp [seenAll, strips]
  | cons p l ih =>
    cases l with
    | nil => simp [seenAll, strips]
    | cons q l =>
      have ih := ih fun a b hab => hX a b (by rw [pairs]; exact List.mem_cons_of_mem _ hab)
      have hin : Crosses mask p q → ∃ r, crossing m mask p q = r ∧ depth mask r = 0 ∧
          ((other mask r - other mask p) * (tested mask q - tested mask p) -
            (bound mask - tested mask p) * (other mask q - other mask p)).natAbs < (tested mask q - tested mask p).natAbs := by
        intro hc
        obtain ⟨r, h1, h2, _, _, h3⟩ := C25_intersect m hc (hX p q (by simp [pairs]) hc)
        refine ⟨r, ?_, (depth_zero_iff _ _).mpr h2, h3⟩
        unfold crossing
        rw [h1]
      have hs := seen_both mask (crossing m mask) p q fun hc => by
        obtain ⟨r, rfl, h, _⟩ := hin hc
        exact h
      simp only [seenAll, strips, roundingOf]
      by_cases hc : Crosses mask p q
      · obtain ⟨r, rfl, _, h⟩ := hin hc
        rw [if_pos hc] at hs ⊢
        omega
      · rw [if_neg hc] at hs ⊢
        omega

theorem edge_both {m : Build} {mask : ClipMask} {edge out out' : List Point} (h : clipEdge m mask edge = .ok out)
    (h' : clipEdge m (mirror mask) edge = .ok out')
    (hX : ∀ p q, [p, q] ∈ pairs edge → Crosses mask p q →
      InI64 ((bound mask - tested mask p) * (other mask q - other mask p))) :
    (strips mask out + strips mask out' - strips mask edge).natAbs ≤ roundingOf mask edge := by
  have h1 := clipEdge_strips h
  have h2 := clipEdge_strips h'
  rw [crossing_mirror, strips_mirror] at h2
  rw [h1, h2]
  exact seenAll_both m mask edge hX

theorem crosses_comm {mask : ClipMask} {p q : Point} : Crosses mask q p ↔ Crosses mask p q := by
  unfold Crosses
  constructor <;> rintro (⟨h1, h2⟩ | ⟨h1, h2⟩)
  all_goals first
    | exact Or.inl ⟨h2, h1⟩
    | exact Or.inr ⟨h2, h1⟩

theorem roundingOf_append (mask : ClipMask) (l l' : List Point) (p : Point) :
    roundingOf mask (l ++ p :: l') = roundingOf mask (l ++ [p]) + roundingOf mask (p :: l') := by
  induction l with
  | nil => simp [roundingOf]
  | cons a l ih =>
    cases l with
    | nil => simp [roundingOf]
    | cons b l =>
      simp only [List.cons_append, roundingOf] at ih ⊢
      rw [ih]
      ring

theorem roundingOf_reverse (mask : ClipMask) (l : List Point) : roundingOf mask l.reverse = roundingOf mask l := by
  induction l with
  | nil => rfl
  | cons a l ih =>
    cases l with
    | nil => rfl
    | cons b l =>
      rw [List.reverse_cons, List.reverse_cons, List.append_assoc, List.singleton_append, roundingOf_append,
        ← List.reverse_cons, ih]
      simp only [roundingOf, crosses_comm (p := a) (q := b)]
      have : (tested mask a - tested mask b).natAbs = (tested mask b - tested mask a).natAbs := by omega
      rw [this]
      ring

/-- The directed edges of a ring, clipped, measured from the line. -/
def stripsOf (mask : ClipMask) (cs : List (List Point)) (ring : TopoRing) : Int :=
  (ring.directedEdges.map fun de => strips mask (facing de.direction (cs[de.edge]?.getD []))).sum

theorem sum_filter_zero {α : Type} (f : α → Int) (p : α → Bool) (l : List α) (h : ∀ a ∈ l, p a = false → f a = 0) :
    (l.map f).sum = ((l.filter p).map f).sum := by
  induction l with
  | nil => rfl
  | cons a l ih =>
    have ih := ih fun b hb => h b (List.mem_cons_of_mem _ hb)
    rw [List.map_cons, List.sum_cons, List.filter_cons]
    cases hp : p a with
    | true => simp [ih]
    | false => simp [ih, h a (by simp) hp]

theorem leftArea_eq {m : Build} {mask : ClipMask} {edges : List TopoEdge} {cs : List (List Point)}
    (hcs : ClippedBy m mask edges cs) (hlen : ∀ e ∈ edges, 2 ≤ e.points.length) {ring : TopoRing}
    {paths : List (List Point)} (hw : ReadsAs edges paths ring) (hc : ClosedRing paths) :
    sigma mask * leftArea cs ring = stripsOf mask cs ring := by
  have hplug := clippedPieces_onLine hcs hlen hw hc
  have h1 : sigma mask * leftArea cs ring = stripsAll mask ((clippedPieces cs ring).map (Piece.path cs)) := by
    unfold leftArea
    by_cases h0 : clippedPieces cs ring = []
    · rw [h0]
      simp [shoelaceEdges, stripsAll]
    · rw [stripsAll_closed (clippedPieces_closed h0)]
  rw [h1]
  unfold stripsAll stripsOf
  rw [List.map_map, sum_filter_zero _ Piece.isKept, C31_visible_edges]
  · generalize ring.directedEdges = des
    induction des with
    | nil => rfl
    | cons de des ih =>
      rw [List.map_cons, List.sum_cons, ← ih, List.filterMap_cons]
      unfold visiblePiece
      by_cases hn : cs[de.edge]?.getD [] = []
      · rw [if_pos hn, hn]
        cases de.direction <;> simp [facing, strips]
      · rw [if_neg hn]
        simp [Piece.path, PieceEdge.points]
  · intro pc hpc hk
    have hp := hplug pc hpc
    cases he : pc.edge with
    | kept i => rw [Piece.isKept, he] at hk; cases hk
    | plug p q =>
      unfold PlugOnLine at hp
      rw [he] at hp
      simp only [Function.comp_apply, Piece.path, strips_facing, he, PieceEdge.points]
      rw [strips, strip_onLine hp.1 hp.2]
      simp [strips]

theorem natAbs_sum_le {α : Type} (f : α → Int) (g : α → Nat) (l : List α) (h : ∀ a ∈ l, (f a).natAbs ≤ g a) :
    ((l.map f).sum).natAbs ≤ (l.map g).sum := by
  induction l with
  | nil => simp
  | cons a l ih =>
    have h1 := h a (by simp)
    have h2 := ih fun b hb => h b (List.mem_cons_of_mem _ hb)
    simp only [List.map_cons, List.sum_cons]
    omega

theorem sum_combine {α : Type} (f g k : α → Int) (l : List α) :
    (l.map f).sum + (l.map g).sum - (l.map k).sum = (l.map fun a => f a + g a - k a).sum := by
  induction l with
  | nil => rfl
  | cons a l ih =>
    simp only [List.map_cons, List.sum_cons, ← ih]
    ring

theorem forall₂_getElem?_exists {α β : Type} {R : α → β → Prop} {l : List α} {l' : List β} (h : List.Forall₂ R l l') {i : Nat}
    {a : α} (ha : l[i]? = some a) : ∃ b, l'[i]? = some b ∧ R a b := by
  induction h generalizing i with
  | nil => simp at ha
  | cons hab _ ih =>
    cases i with
    | zero =>
      obtain rfl : _ = a := by simpa using ha
      exact ⟨_, rfl, hab⟩
    | succ i => exact ih (by simpa using ha)

/-- A ring's area is that of its two halves, but for rounding. -/
theorem ring_both {m : Build} {mask : ClipMask} {edges : List TopoEdge} {cs cs' : List (List Point)}
    (hcs : ClippedBy m mask edges cs) (hcs' : ClippedBy m (mirror mask) edges cs')
    (hlen : ∀ e ∈ edges, 2 ≤ e.points.length)
    (hX : ∀ e ∈ edges, ∀ p q, [p, q] ∈ pairs e.points → Crosses mask p q →
      InI64 ((bound mask - tested mask p) * (other mask q - other mask p)))
    {ring : TopoRing} {paths : List (List Point)} (hw : ReadsAs edges paths ring) (hc : ClosedRing paths) :
    (leftArea cs ring + leftArea cs' ring - topoRingArea edges ring).natAbs ≤ ringRounding mask edges ring := by
  have hpaths : (ring.directedEdges.map fun de => (walk edges de).getD []) = paths := by
    have : ring.directedEdges.map (walk edges) = paths.map some := hw
    have h := congrArg (List.map fun o : Option (List Point) => o.getD []) this
    simpa [List.map_map, Function.comp_def] using h
  have h1 := leftArea_eq hcs hlen hw hc
  have h2 := leftArea_eq hcs' hlen hw hc
  have h3 : sigma mask * topoRingArea edges ring = (ring.directedEdges.map fun de => strips mask ((walk edges de).getD [])).sum := by
    unfold topoRingArea
    rw [hpaths, ← stripsAll_closed hc, ← hpaths]
    unfold stripsAll
    rw [List.map_map]
    rfl
  have h2' : sigma mask * leftArea cs' ring = stripsOf mask cs' ring := by
    have hs : sigma (mirror mask) = sigma mask := by cases mask <;> rfl
    rw [← hs, h2]
    unfold stripsOf
    simp only [strips_mirror]
  have habs : (leftArea cs ring + leftArea cs' ring - topoRingArea edges ring).natAbs =
      (sigma mask * leftArea cs ring + sigma mask * leftArea cs' ring - sigma mask * topoRingArea edges ring).natAbs := by
    cases mask <;> simp only [sigma] <;> omega
  rw [habs, h1, h2', h3]
  unfold stripsOf
  rw [sum_combine]
  apply natAbs_sum_le
  intro de hde
  have hwd : ∃ path, walk edges de = some path := by
    have : walk edges de ∈ paths.map some := by
      rw [← show ring.directedEdges.map (walk edges) = paths.map some from hw]
      exact List.mem_map_of_mem hde
    obtain ⟨path, _, h⟩ := List.mem_map.mp this
    exact ⟨path, h.symm⟩
  obtain ⟨path, hpath⟩ := hwd
  unfold walk at hpath ⊢
  obtain ⟨e, he, rfl⟩ := Option.map_eq_some_iff.mp hpath
  obtain ⟨c, hc1, hc2⟩ := forall₂_getElem?_exists hcs he
  obtain ⟨c', hc1', hc2'⟩ := forall₂_getElem?_exists hcs' he
  have key := edge_both hc2 hc2' (hX e (List.mem_of_getElem? he))
  rw [he, hc1, hc1']
  simp only [Option.map_some, Option.getD_some]
  cases de.direction with
  | forward => simpa [facing] using key
  | backward =>
    simp only [facing, strips_reverse, roundingOf_reverse]
    omega

/-! ## Checked arithmetic is exact -/

theorem shoelaceEdges_append (a b : List (List Point)) : shoelaceEdges (a ++ b) = shoelaceEdges a + shoelaceEdges b := by
  simp [shoelaceEdges]

theorem plugGap_exact {cs : List (List Point)} {s s' : ClipRingState} {o1 o2 : Option Point} (hs : InI64 s.area2)
    (h : plugGap .debug s o1 o2 = .ok s') :
    s'.area2 = s.area2 + shoelaceEdges ((gap o1 o2).map (Piece.path cs)) ∧ InI64 s'.area2 := by
  cases o1 with
  | none => obtain rfl := Except.ok.inj h; simp [gap, shoelaceEdges, hs]
  | some p =>
    cases o2 with
    | none => obtain rfl := Except.ok.inj h; simp [gap, shoelaceEdges, hs]
    | some q =>
      simp only [plugGap] at h
      by_cases hpq : p = q
      · rw [if_neg (by simpa using hpq)] at h
        obtain rfl := Except.ok.inj h
        simp [gap, hpq, shoelaceEdges, hs]
      · rw [if_pos (by simpa using hpq)] at h
        simp only [ClipRingState.plug, bind_ok] at h
        obtain ⟨t, ht, a, ha, h⟩ := h
        obtain rfl := Except.ok.inj h
        obtain ⟨rfl, hin⟩ := i64_debug.mp ha
        obtain rfl := signedArea2_debug ht
        simp only [gap, if_neg hpq, List.map_singleton, path_plugPiece, shoelaceEdges, List.sum_singleton]
        exact ⟨trivial, hin⟩

theorem clipRingStep_exact {cs : List (List Point)} {b : ClipBuilder} (hb : ForEdges cs b) {s s' : ClipRingState}
    {de : DirectedEdge} {pc : Piece} (hs : InI64 s.area2) (hv : visiblePiece cs de = some pc)
    (h : clipRingStep .debug b s de = .ok s') :
    s'.area2 = s.area2 + shoelaceEdges ((gap s.previous (pc.path cs).head? ++ [pc]).map (Piece.path cs)) ∧ InI64 s'.area2 := by
  obtain ⟨rfl, c, hc, hne⟩ := visiblePiece_some hv
  simp only [clipRingStep_eq, ClipBuilder.findOldEdgeId, hb.finder, finderOf_getElem?, hc, Option.map_some, hne, if_false,
    Nat.zero_add, ok_bind, hb.oldEdges, filter_getElem?_newId hc hne, clipRingVisible, bind_ok] at h
  obtain ⟨first, hfirst, s2, hs2, last, hlast, t, ht, a, ha, h⟩ := h
  obtain rfl := Except.ok.inj h
  rw [firstPoint_ok] at hfirst
  have hpath : (⟨.kept de.edge, de.direction⟩ : Piece).path cs = facing de.direction c := by
    simp [Piece.path, PieceEdge.points, hc]
  generalize hs1 : (if s.start = none then ({ s with start := some first } : ClipRingState) else s) = s1 at hs2
  have hs1p : s1.previous = s.previous ∧ s1.area2 = s.area2 := by rw [← hs1]; split <;> exact ⟨rfl, rfl⟩
  rw [hs1p.1] at hs2
  obtain ⟨h1, h2⟩ := plugGap_exact (cs := cs) (by rw [hs1p.2]; exact hs) hs2
  obtain ⟨rfl, hin⟩ := i64_debug.mp ha
  obtain rfl := signedArea2_debug ht
  refine ⟨?_, hin⟩
  rw [List.map_append, shoelaceEdges_append, hpath, hfirst]
  simp only [List.map_singleton, hpath, h1, hs1p.2, shoelaceEdges, List.sum_singleton, orient_eq]
  ring

theorem clipRingLoop_exact {cs : List (List Point)} {b : ClipBuilder} (hb : ForEdges cs b) {n : Nat}
    {des : List DirectedEdge} {ks : List (Point × Point)} {P : List Piece} {s s' : ClipRingState}
    (hi : ClipInv cs n ks P s) (hs : InI64 s.area2) (h : clipRingLoop .debug b s des = .ok s') :
    s'.area2 = s.area2 + shoelaceEdges ((bridge cs s.previous (des.filterMap (visiblePiece cs))).map (Piece.path cs)) ∧
      InI64 s'.area2 := by
  induction des generalizing ks P s with
  | nil =>
    obtain rfl := Except.ok.inj h
    simp [bridge, shoelaceEdges, hs]
  | cons de des ih =>
    simp only [clipRingLoop, bind_ok] at h
    obtain ⟨s1, h1, h⟩ := h
    rcases clipRingStep_ok hb hi h1 with ⟨hv, rfl⟩ | ⟨pc, hv, _, hi1, _, hpr⟩
    · rw [List.filterMap_cons_none hv]
      exact ih hi hs h
    · obtain ⟨h2, h3⟩ := clipRingStep_exact hb hs hv h1
      obtain ⟨h4, h5⟩ := ih hi1 h3 h
      refine ⟨?_, h5⟩
      rw [h4, h2, hpr, List.filterMap_cons_some hv, bridge, List.map_append, List.map_append, shoelaceEdges_append,
        shoelaceEdges_append, List.map_cons, List.map_cons]
      simp only [shoelaceEdges, List.map_nil, List.map_cons, List.sum_cons, List.sum_nil]
      ring

theorem clipRing_fits {cs : List (List Point)} {b : ClipBuilder} (hb : ForEdges cs b) {n : Nat}
    {ks : List (Point × Point)} (hne : b.newEdges = ⟨n, ks.zipIdx n⟩) {ring : TopoRing}
    {x : Option BuildRing × ClipBuilder} (h : clipRing .debug b ring = .ok x) : InI64 (leftArea cs ring) := by
  simp only [clipRing_eq, bind_ok] at h
  obtain ⟨s, hs, s', hs', h⟩ := h
  have hi : ClipInv cs n ks [] ⟨[], 0, none, none, b.newEdges⟩ :=
    ⟨rfl, by simp [plugKeys], by simp [piecesArea, shoelaceEdges, wrap64], hne⟩
  obtain ⟨h1, h2, h3⟩ := clipRingLoop_ok hb hi hs
  obtain ⟨h4, h5⟩ := clipRingLoop_exact hb hi (by simp [InI64]) hs
  simp only [Option.none_or, Option.or_none] at h2 h3
  rw [h2, h3] at hs'
  obtain ⟨h6, h7⟩ := plugGap_exact (cs := cs) h5 hs'
  unfold leftArea clippedPieces closeUp
  rw [List.map_append, shoelaceEdges_append]
  have : s'.area2 = shoelaceEdges ((bridge cs none (ring.directedEdges.filterMap (visiblePiece cs))).map (Piece.path cs)) +
      shoelaceEdges ((gap (endOf cs (ring.directedEdges.filterMap (visiblePiece cs)))
        (startOf cs (ring.directedEdges.filterMap (visiblePiece cs)))).map (Piece.path cs)) := by
    rw [h6, h4]
    simp
  rw [← this]
  exact h7

theorem clipRings_fits {cs : List (List Point)} {rings : List TopoRing} {b : ClipBuilder} (hb : ForEdges cs b) {n : Nat}
    {ks : List (Point × Point)} (hne : b.newEdges = ⟨n, ks.zipIdx n⟩) {x : List BuildRing × ClipBuilder}
    (h : clipRings .debug b rings = .ok x) : ∀ ring ∈ rings, InI64 (leftArea cs ring) := by
  induction rings generalizing b ks x with
  | nil => simp
  | cons r rings ih =>
    simp only [clipRings, bind_ok] at h
    obtain ⟨⟨o, b1⟩, h1, ⟨rs, b2⟩, h2, h⟩ := h
    obtain ⟨h3, _⟩ := clipRing_ok hb hne h1
    simp only at h2 h3
    have := ih (b := b1) (by subst h3; exact ⟨hb.oldEdges, hb.finder⟩) (by rw [h3]) h2
    intro ring hring
    rcases List.mem_cons.mp hring with rfl | hring
    · exact clipRing_fits hb hne h1
    · exact this ring hring

theorem wrap64_fits {z : Int} (h : InI64 z) : wrap64 z = z := by
  unfold InI64 at h
  unfold wrap64
  omega

theorem keptClipped_eq_nil {cs : List (List Point)} {rings : List TopoRing} (h : ∀ ring ∈ rings, InI64 (leftArea cs ring)) :
    keptClipped cs rings = [] ↔ ∀ ring ∈ rings, leftArea cs ring = 0 := by
  unfold keptClipped
  rw [List.filter_eq_nil_iff]
  simp only [List.mem_map, forall_exists_index, and_imp, forall_apply_eq_imp_iff₂]
  refine forall₂_congr fun ring hring => ?_
  have := wrap64_fits (h ring hring)
  unfold leftArea at this
  simp only [piecesArea, this, leftArea]
  simp

theorem clipRegions_fits {δ : Type} {cs : List (List Point)} {rs : List (TopoRegion δ)} {b : ClipBuilder}
    (hb : ForEdges cs b) {n : Nat} {ks : List (Point × Point)} (hne : b.newEdges = ⟨n, ks.zipIdx n⟩)
    {x : List (BuildRegion δ) × ClipBuilder} (h : clipRegions .debug b rs = .ok x) :
    ∀ r ∈ rs, (∀ ring ∈ r.outerRings, InI64 (leftArea cs ring)) ∧
      ((∃ ring ∈ r.outerRings, leftArea cs ring ≠ 0) → ∀ ring ∈ r.innerRings, InI64 (leftArea cs ring)) := by
  induction rs generalizing b ks x with
  | nil => simp
  | cons r rs ih =>
    have h0 := h
    simp only [clipRegions, bind_ok] at h
    obtain ⟨⟨o, b1⟩, h1, ⟨rs', b2⟩, h2, _⟩ := h
    have hb1 : ∃ ks1 : List (Point × Point), ForEdges cs b1 ∧ b1.newEdges = ⟨n, ks1.zipIdx n⟩ := by
      have : clipRegions .debug b [r] = .ok (o.toList, b1) := by
        simp only [clipRegions, h1, ok_bind, List.append_nil]
      obtain ⟨h3, _⟩ := clipRegions_ok hb hne this
      simp only at h3
      exact ⟨_, by rw [h3]; exact ⟨hb.oldEdges, hb.finder⟩, by rw [h3]⟩
    obtain ⟨ks1, hb1, hne1⟩ := hb1
    have ih := ih hb1 hne1 h2
    intro r' hr'
    rcases List.mem_cons.mp hr' with rfl | hr'
    · simp only [clipRegion, bind_ok] at h1
      obtain ⟨⟨outer, b3⟩, h3, h1⟩ := h1
      have hout := clipRings_fits hb hne h3
      obtain ⟨h4, h5⟩ := clipRings_ok hb hne h3
      simp only at h1 h4 h5
      refine ⟨hout, ?_⟩
      rintro ⟨ring, hring, hnz⟩
      have hk : keptClipped cs r'.outerRings ≠ [] := fun h => hnz ((keptClipped_eq_nil hout).mp h ring hring)
      have hlen : outer.length > 0 := by
        rw [h5, List.length_map]
        exact List.length_pos_of_ne_nil hk
      rw [if_pos hlen, bind_ok] at h1
      obtain ⟨⟨inner, b4⟩, h6, _⟩ := h1
      exact clipRings_fits (b := b3) (by subst h4; exact ⟨hb.oldEdges, hb.finder⟩) (by rw [h4]) h6
    · exact ih r' hr'

/-! ## Regions -/

theorem forall₂_filter_map {α β γ : Type} {P : β → γ → Prop} {f : α → Prop} [DecidablePred f] {g : α → β} {l : List α} {out : List γ}
    (h : List.Forall₂ P ((l.filter fun a => f a).map g) out) :
    ∃ L : List (Option γ), L.reduceOption = out ∧
      List.Forall₂ (fun a o => (f a ∧ ∃ c, o = some c ∧ P (g a) c) ∨ (¬ f a ∧ o = none)) l L := by
  induction l generalizing out with
  | nil =>
    cases h
    exact ⟨[], rfl, List.Forall₂.nil⟩
  | cons a l ih =>
    by_cases hf : f a
    · rw [List.filter_cons_of_pos (by simpa using hf), List.map_cons] at h
      cases h with
      | cons h1 h2 =>
        obtain ⟨L, h3, h4⟩ := ih h2
        exact ⟨some _ :: L, by rw [List.reduceOption_cons_of_some, h3], List.Forall₂.cons (Or.inl ⟨hf, _, rfl, h1⟩) h4⟩
    · rw [List.filter_cons_of_neg (by simpa using hf)] at h
      obtain ⟨L, h3, h4⟩ := ih h
      exact ⟨none :: L, by rw [List.reduceOption_cons_of_none, h3], List.Forall₂.cons (Or.inr ⟨hf, rfl⟩) h4⟩

theorem topoRingArea_reads {edges : List TopoEdge} {paths : List (List Point)} {ring : TopoRing} (h : ReadsAs edges paths ring) :
    topoRingArea edges ring = shoelaceEdges paths := by
  unfold topoRingArea
  have : ring.directedEdges.map (walk edges) = paths.map some := h
  have h := congrArg (List.map fun o : Option (List Point) => o.getD []) this
  congr 1
  simpa [List.map_map, Function.comp_def] using h

theorem sum_kept {cs : List (List Point)} {edges : List TopoEdge} {rings rings' : List TopoRing}
    (hfit : ∀ ring ∈ rings, InI64 (leftArea cs ring))
    (h : List.Forall₂ (fun ps ring => ReadsAs edges (ps.map (Piece.path cs)) ring) (keptClipped cs rings) rings') :
    (rings'.map (topoRingArea edges)).sum = (rings.map (leftArea cs)).sum := by
  have h1 : (rings'.map (topoRingArea edges)) = (keptClipped cs rings).map fun ps => shoelaceEdges (ps.map (Piece.path cs)) := by
    generalize keptClipped cs rings = kept at h
    induction h with
    | nil => rfl
    | cons h1 _ ih => rw [List.map_cons, List.map_cons, ih, topoRingArea_reads h1]
  rw [h1]
  clear h h1
  induction rings with
  | nil => rfl
  | cons r rings ih =>
    have ih := ih fun ring hr => hfit ring (List.mem_cons_of_mem _ hr)
    have hw := wrap64_fits (hfit r (by simp))
    unfold keptClipped at ih ⊢
    rw [List.map_cons, List.map_cons, List.sum_cons, ← ih]
    by_cases hz : piecesArea cs (clippedPieces cs r) = 0
    · rw [List.filter_cons_of_neg (by simpa using hz)]
      have : leftArea cs r = 0 := by rw [← hw]; exact hz
      rw [this, zero_add]
    · rw [List.filter_cons_of_pos (by simpa using hz), List.map_cons, List.sum_cons]
      rfl

/-- What is left of a region has the area of what is left of its rings. -/
theorem clipped_areas {δ : Type} {m : Build} {mask : ClipMask} {t t' : Topology δ} (h : clipTopology m t mask = .ok t')
    (hfit : LeftoversFit m mask t) (hholes : HolesFollow m mask t) :
    ∃ cs L, ClippedBy m mask t.edges cs ∧ Survivors t t' L ∧
      List.Forall₂ (fun r (o : Option (TopoRegion δ)) => o.elim 0 (topoRegionArea t'.edges) =
        ((r.outerRings ++ r.innerRings).map (leftArea cs)).sum) t.regions L := by
  obtain ⟨cs, hcs, hr⟩ := C31_regions m mask t t' h
  obtain ⟨L, h1, h2⟩ := forall₂_filter_map hr
  refine ⟨cs, L, hcs, ⟨h1, h2.imp ?_⟩, forall₂_imp_mem h2 ?_⟩
  · rintro r o (⟨_, c, rfl, hd, _⟩ | ⟨_, rfl⟩) r' hr'
    · obtain rfl := Option.some.inj hr'
      exact hd
    · cases hr'
  · intro r hr o ho
    obtain ⟨f1, f2⟩ := hfit cs hcs r hr
    rw [List.map_append, List.sum_append]
    rcases ho with ⟨hne, c, rfl, _, h3, h4⟩ | ⟨hn, rfl⟩
    · have hex : ∃ ring ∈ r.outerRings, leftArea cs ring ≠ 0 := by
        by_contra hcon
        refine hne ((keptClipped_eq_nil f1).mpr fun ring hring => ?_)
        by_contra hz
        exact hcon ⟨ring, hring, hz⟩
      simp only [Option.elim_some]
      unfold topoRegionArea
      rw [List.map_append, List.sum_append, sum_kept f1 h3, sum_kept (f2 hex) h4]
    · have hz := (keptClipped_eq_nil f1).mp (by simpa using hn)
      rw [hholes cs hcs r hr hz]
      have : (r.outerRings.map (leftArea cs)).sum = 0 := by
        rw [List.map_congr_left (g := fun _ => (0 : Int)) hz]
        simp
      rw [this]
      rfl

end TopoGeo
