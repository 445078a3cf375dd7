import Verif.Props.Clip
import Verif.Spec.ClipTopology
/-!
# Helper lemmas about `clip_topology`
-/

namespace TopoGeo

open Spec

/-! ## Old edges -/

/-- The index of edge `i` among the visible clipped edges. -/
def newId (cs : List (List Point)) (i : Nat) : Nat := ((cs.take i).filter (· ≠ [])).length

/-- The finder for clipped edges, when ids start at `n`. -/
def finderOf (n : Nat) : List (List Point) → List (Option Nat)
  | [] => []
  | c :: cs => if c = [] then none :: finderOf n cs else some n :: finderOf (n + 1) cs

theorem clipOldEdges_ok {m : Build} {mask : ClipMask} {edges : List TopoEdge} {clipped : List (List Point)}
    {finder : List (Option Nat)} {x : List (List Point) × List (Option Nat)}
    (h : clipOldEdges m mask clipped finder edges = .ok x) :
    ∃ cs, ClippedBy m mask edges cs ∧ x.1 = clipped ++ cs.filter (· ≠ []) ∧
      x.2 = finder ++ finderOf clipped.length cs := by
  induction edges generalizing clipped finder with
  | nil =>
    obtain rfl := Except.ok.inj h
    exact ⟨[], List.Forall₂.nil, by simp, by simp [finderOf]⟩
  | cons e rest ih =>
    simp only [clipOldEdges, bind_ok] at h
    obtain ⟨c, hc, h⟩ := h
    split at h
    · rename_i hlen
      have hne : c ≠ [] := by rintro rfl; simp at hlen
      obtain ⟨cs, h1, h2, h3⟩ := ih h
      refine ⟨c :: cs, List.Forall₂.cons hc h1, ?_, ?_⟩
      · rw [h2]; simp [hne]
      · rw [h3]; simp [finderOf, hne]
    · rename_i hlen
      have he : c = [] := by
        by_contra hne
        exact hlen (C29_two_points hc hne)
      obtain ⟨cs, h1, h2, h3⟩ := ih h
      refine ⟨c :: cs, List.Forall₂.cons hc h1, ?_, ?_⟩
      · rw [h2]; simp [he]
      · rw [h3]; simp [finderOf, he]

theorem clipOldEdges_onlyOverflow (m : Build) (mask : ClipMask) (edges : List TopoEdge)
    (clipped : List (List Point)) (finder : List (Option Nat)) :
    OnlyOverflow m (clipOldEdges m mask clipped finder edges) := by
  induction edges generalizing clipped finder with
  | nil => exact OnlyOverflow.ok _
  | cons e rest ih =>
    refine OnlyOverflow.bind (clipEdge_onlyOverflow m mask e.points) fun c _ => ?_
    split
    · exact ih _ _
    · exact ih _ _

theorem finderOf_getElem? (cs : List (List Point)) (n i : Nat) :
    (finderOf n cs)[i]? = cs[i]?.map fun c => if c = [] then none else some (n + newId cs i) := by
  induction cs generalizing n i with
  | nil => simp [finderOf]
  | cons c cs ih =>
    cases i with
    | zero =>
      by_cases hc : c = [] <;> simp [finderOf, hc, newId]
    | succ i =>
      by_cases hc : c = []
      · simp only [finderOf, hc, if_true, List.getElem?_cons_succ, ih]
        simp [newId]
      · simp only [finderOf, hc, if_false, List.getElem?_cons_succ, ih]
        have : newId (c :: cs) (i + 1) = newId cs i + 1 := by simp [newId, hc]
        rw [this]
        congr 1
        funext c'
        split
        · rfl
        · congr 1; omega

theorem filter_getElem?_newId {cs : List (List Point)} {i : Nat} {c : List Point} (h : cs[i]? = some c)
    (hc : c ≠ []) : (cs.filter (· ≠ []))[newId cs i]? = some c := by
  induction cs generalizing i with
  | nil => simp at h
  | cons a cs ih =>
    cases i with
    | zero =>
      simp only [List.getElem?_cons_zero, Option.some.injEq] at h
      subst h
      simp [newId, hc]
    | succ i =>
      simp only [List.getElem?_cons_succ] at h
      have := ih h
      by_cases ha : a = []
      · simpa [newId, ha] using this
      · simpa [newId, ha] using this

theorem newId_lt {cs : List (List Point)} {i j : Nat} {c : List Point} (hij : i < j) (h : cs[i]? = some c)
    (hc : c ≠ []) : newId cs i < newId cs j := by
  induction cs generalizing i j with
  | nil => simp at h
  | cons a cs ih =>
    obtain ⟨j, rfl⟩ : ∃ j', j = j' + 1 := ⟨j - 1, by omega⟩
    cases i with
    | zero =>
      simp only [List.getElem?_cons_zero, Option.some.injEq] at h
      subst h
      simp [newId, hc]
    | succ i =>
      simp only [List.getElem?_cons_succ] at h
      have := ih (by omega : i < j) h
      by_cases ha : a = []
      · simpa [newId, ha] using this
      · simpa [newId, ha] using this

theorem newId_inj {cs : List (List Point)} {i j : Nat} {c d : List Point} (h : cs[i]? = some c)
    (hc : c ≠ []) (h' : cs[j]? = some d) (hd : d ≠ []) (he : newId cs i = newId cs j) : i = j := by
  rcases Nat.lt_trichotomy i j with hlt | heq | hlt
  · have := newId_lt hlt h hc; omega
  · exact heq
  · have := newId_lt hlt h' hd; omega

/-! ## Plugs -/

theorem mapEntry_zipIdx_from {κ : Type} [DecidableEq κ] (n : Nat) (ks : List κ) (k : κ) :
    mapEntry (n + (ks.zipIdx n).length) k (ks.zipIdx n) =
      (n + keyIdx (addKey ks k) k, (addKey ks k).zipIdx n) := by
  unfold mapEntry addKey
  rw [mapGet_zipIdx]
  split
  · rename_i id h
    split at h
    · rename_i hm; simp [hm] at h ⊢; exact h.symm
    · cases h
  · rename_i h
    split at h
    · cases h
    · rename_i hm
      simp only [hm, if_false, List.length_zipIdx, List.zipIdx_append]
      rw [keyIdx_snoc hm]
      simp

/-- The key of a plug. -/
def plugKey (p q : Point) : Point × Point := if p < q then (p, q) else (q, p)

/-- The keys of the plugs in a list of pieces. -/
def plugKeys (ps : List Piece) : List (Point × Point) :=
  ps.filterMap fun pc => match pc.edge with
    | .plug p q => some (p, q)
    | .kept _ => none

theorem plugKeys_append (a b : List Piece) : plugKeys (a ++ b) = plugKeys a ++ plugKeys b := by
  simp [plugKeys]

theorem plugKeys_plugPiece (p q : Point) : plugKeys [plugPiece p q] = [plugKey p q] := by
  unfold plugKeys plugPiece plugKey; split <;> rfl

theorem plugKeys_kept (i : Nat) (d : Direction) : plugKeys [⟨.kept i, d⟩] = [] := rfl

/-- The id of a piece edge. -/
def place (cs : List (List Point)) (n : Nat) (ks : List (Point × Point)) : PieceEdge → Nat
  | .kept i => newId cs i
  | .plug p q => n + keyIdx ks (p, q)

/-- The directed edge of a piece. -/
def toDE (cs : List (List Point)) (n : Nat) (ks : List (Point × Point)) (pc : Piece) : DirectedEdge :=
  ⟨place cs n ks pc.edge, pc.direction⟩

theorem toDE_prefix {cs : List (List Point)} {n : Nat} {ks ks' : List (Point × Point)} {ps : List Piece}
    (hp : ks <+: ks') (hk : ∀ k ∈ plugKeys ps, k ∈ ks) : ps.map (toDE cs n ks') = ps.map (toDE cs n ks) := by
  apply List.map_congr_left
  rintro ⟨e, d⟩ he
  cases e with
  | kept i => rfl
  | plug p q =>
    have : (p, q) ∈ ks := hk _ (List.mem_filterMap.mpr ⟨_, he, rfl⟩)
    simp only [toDE, place]
    rw [idxOf_prefix hp this]

theorem path_plugPiece (cs : List (List Point)) (p q : Point) : (plugPiece p q).path cs = [p, q] := by
  unfold plugPiece; split <;> rfl

theorem orient_eq (d : Direction) (l : List Point) : orient d l = facing d l := by cases d <;> rfl

/-! ## Rings -/

/-- The state of `clip_ring` after the pieces `P`. -/
structure ClipInv (cs : List (List Point)) (n : Nat) (ks : List (Point × Point)) (P : List Piece)
    (s : ClipRingState) : Prop where
  ret : s.ret = P.map (toDE cs n ks)
  keys : ∀ k ∈ plugKeys P, k ∈ ks
  area : s.area2 = piecesArea cs P
  newEdges : s.newEdges = ⟨n, ks.zipIdx n⟩

theorem piecesArea_snoc (cs : List (List Point)) (P : List Piece) (pc : Piece) :
    piecesArea cs (P ++ [pc]) = wrap64 (piecesArea cs P + wrap64 (shoelace (pc.path cs))) := by
  unfold piecesArea
  rw [wrap64_add_wrap64_left, wrap64_add_wrap64_right]
  simp [shoelaceEdges]

theorem plug_ok {m : Build} {cs : List (List Point)} {n : Nat} {ks : List (Point × Point)} {P : List Piece}
    {s s' : ClipRingState} {p q : Point} (hi : ClipInv cs n ks P s) (h : s.plug m p q = .ok s') :
    ClipInv cs n (addKey ks (plugKey p q)) (P ++ [plugPiece p q]) s' ∧ s'.start = s.start ∧
      s'.previous = s.previous := by
  simp only [ClipRingState.plug, bind_ok, NewEdgeSet.buildDirectedEdge, hi.newEdges,
    mapEntry_zipIdx_from] at h
  obtain ⟨t, ht, a, ha, h⟩ := h
  obtain rfl := Except.ok.inj h
  refine ⟨⟨?_, ?_, ?_, ?_⟩, rfl, rfl⟩
  · simp only
    have hde : [plugPiece p q].map (toDE cs n (addKey ks (plugKey p q))) =
        [⟨n + keyIdx (addKey ks (plugKey p q)) (plugKey p q), if p < q then .forward else .backward⟩] := by
      by_cases hpq : p < q
      · simp only [plugPiece, plugKey, if_pos hpq]; rfl
      · simp only [plugPiece, plugKey, if_neg hpq]; rfl
    rw [hi.ret, List.map_append, toDE_prefix (addKey_prefix ks _) hi.keys, hde]
    rfl
  · intro k hk
    rw [plugKeys_append, plugKeys_plugPiece, List.mem_append, List.mem_singleton] at hk
    rw [mem_addKey]
    rcases hk with hk | hk
    · exact Or.inl (hi.keys k hk)
    · exact Or.inr hk
  · simp only
    rw [i64_ok_wrap ha, signedArea2_ok ht, piecesArea_snoc, path_plugPiece, hi.area]
  · rfl

theorem plug_onlyOverflow (m : Build) (s : ClipRingState) (p q : Point) : OnlyOverflow m (s.plug m p q) := by
  unfold ClipRingState.plug
  refine OnlyOverflow.bind (fun e he => signedArea2_error he) fun t _ => ?_
  refine OnlyOverflow.bind (fun e he => ?_) fun a _ => OnlyOverflow.ok _
  exact ⟨(i64_error.mp he).1, (i64_error.mp he).2.1⟩

/-- The builder's old edges and finder are those of `cs`. -/
structure ForEdges (cs : List (List Point)) (b : ClipBuilder) : Prop where
  oldEdges : b.oldEdges = cs.filter (· ≠ [])
  finder : b.finder = finderOf 0 cs

/-- Plug a gap. -/
def plugGap (m : Build) (s : ClipRingState) : Option Point → Option Point → R ClipRingState
  | some p, some q => if p ≠ q then s.plug m p q else .ok s
  | _, _ => .ok s

/-- What `clip_ring` does with a visible edge. -/
def clipRingVisible (m : Build) (s : ClipRingState) (id : Nat) (d : Direction) (c : List Point) :
    R ClipRingState := do
  let first ← firstPoint c d
  let s1 : ClipRingState := if s.start = none then { s with start := some first } else s
  let s2 ← plugGap m s1 s1.previous (some first)
  let last ← lastPoint c d
  let t ← signedArea2 m (orient d c)
  let a ← m.i64 (s2.area2 + t)
  .ok { s2 with ret := s2.ret ++ [⟨id, d⟩], previous := some last, area2 := a }

theorem clipRingStep_eq (m : Build) (b : ClipBuilder) (s : ClipRingState) (de : DirectedEdge) :
    clipRingStep m b s de = (b.findOldEdgeId de.edge >>= fun o =>
      match o with
      | none => .ok s
      | some id => match b.oldEdges[id]? with
        | none => .error .index
        | some c => clipRingVisible m s id de.direction c) := by
  unfold clipRingStep
  cases b.findOldEdgeId de.edge with
  | error e => rfl
  | ok o =>
    cases o with
    | none => rfl
    | some id =>
      simp only [ok_bind]
      cases b.oldEdges[id]? with
      | none => rfl
      | some c =>
        simp only [clipRingVisible]
        cases firstPoint c de.direction with
        | error e => rfl
        | ok first =>
          simp only [ok_bind]
          generalize (if s.start = none then ({ s with start := some first } : ClipRingState) else s) = s1
          cases s1.previous with
          | none => rfl
          | some p =>
            simp only [plugGap]
            split <;> rfl

theorem clipRing_eq (m : Build) (b : ClipBuilder) (ring : TopoRing) :
    clipRing m b ring = (clipRingLoop m b ⟨[], 0, none, none, b.newEdges⟩ ring.directedEdges >>= fun s =>
      plugGap m s s.previous s.start >>= fun s' =>
        if s'.area2 = 0 then .ok (none, { b with newEdges := s'.newEdges })
        else .ok (some s'.ret, { b with newEdges := s'.newEdges })) := by
  unfold clipRing
  cases clipRingLoop m b ⟨[], 0, none, none, b.newEdges⟩ ring.directedEdges with
  | error e => rfl
  | ok s =>
    simp only [ok_bind]
    cases s.start with
    | none => cases s.previous <;> rfl
    | some p0 =>
      cases s.previous with
      | none => rfl
      | some pn =>
        simp only [plugGap]
        by_cases h : p0 = pn
        · subst h; simp
        · rw [if_pos h, if_pos (fun x => h x.symm)]

/-- The points of a gap. -/
theorem gap_ok {m : Build} {cs : List (List Point)} {n : Nat} {ks : List (Point × Point)} {P : List Piece}
    {s s' : ClipRingState} {o1 o2 : Option Point} (hi : ClipInv cs n ks P s)
    (h : plugGap m s o1 o2 = .ok s') :
    ClipInv cs n (addKeys ks (plugKeys (gap o1 o2))) (P ++ gap o1 o2) s' ∧
      s'.start = s.start ∧ s'.previous = s.previous := by
  have triv : gap o1 o2 = [] → s' = s → ClipInv cs n (addKeys ks (plugKeys (gap o1 o2))) (P ++ gap o1 o2) s' ∧
      s'.start = s.start ∧ s'.previous = s.previous := by
    rintro h1 rfl
    rw [h1, List.append_nil]
    exact ⟨hi, rfl, rfl⟩
  cases o1 with
  | none => exact triv rfl (Except.ok.inj h).symm
  | some p =>
  cases o2 with
  | none => exact triv rfl (Except.ok.inj h).symm
  | some q =>
  simp only [plugGap] at h
  by_cases hpq : p = q
  · rw [if_neg (by simpa using hpq)] at h
    exact triv (by simp [gap, hpq]) (Except.ok.inj h).symm
  · rw [if_pos (by simpa using hpq)] at h
    simp only [gap, hpq, if_false]
    rw [plugKeys_plugPiece]
    exact plug_ok hi h

theorem firstPoint_ok {l : List Point} {d : Direction} {p : Point} :
    firstPoint l d = .ok p ↔ (facing d l).head? = some p := by
  unfold firstPoint
  cases d <;> simp only [facing, List.head?_reverse] <;> split <;> rename_i h <;> rw [h] <;> simp

theorem lastPoint_ok {l : List Point} {d : Direction} {p : Point} :
    lastPoint l d = .ok p ↔ (facing d l).getLast? = some p := by
  unfold lastPoint
  cases d <;> simp only [facing, List.getLast?_reverse] <;> split <;> rename_i h <;> rw [h] <;> simp

theorem clipRingStep_ok {m : Build} {cs : List (List Point)} {b : ClipBuilder} (hb : ForEdges cs b) {n : Nat}
    {ks : List (Point × Point)} {P : List Piece} {s s' : ClipRingState} {de : DirectedEdge}
    (hi : ClipInv cs n ks P s) (h : clipRingStep m b s de = .ok s') :
    (visiblePiece cs de = none ∧ s' = s) ∨
    ∃ pc, visiblePiece cs de = some pc ∧ pc.path cs ≠ [] ∧
      ClipInv cs n (addKeys ks (plugKeys (gap s.previous (pc.path cs).head? ++ [pc])))
        (P ++ (gap s.previous (pc.path cs).head? ++ [pc])) s' ∧
      s'.start = s.start.or (pc.path cs).head? ∧ s'.previous = (pc.path cs).getLast? := by
  simp only [clipRingStep_eq, ClipBuilder.findOldEdgeId, hb.finder, finderOf_getElem?, bind_ok] at h
  obtain ⟨o, ho, h⟩ := h
  cases hc : cs[de.edge]? with
  | none => rw [hc] at ho; cases ho
  | some c =>
    rw [hc] at ho
    simp only [Option.map_some, Except.ok.injEq] at ho
    by_cases hne : c = []
    · left
      subst hne
      simp only [if_true] at ho
      subst ho
      simp only [Except.ok.injEq] at h
      exact ⟨by simp [visiblePiece, hc], h.symm⟩
    · right
      simp only [hne, if_false, Nat.zero_add] at ho
      subst ho
      simp only [hb.oldEdges, filter_getElem?_newId hc hne, clipRingVisible, bind_ok] at h
      obtain ⟨first, hfirst, s2, hs2, last, hlast, t, ht, a, ha, h⟩ := h
      obtain rfl := Except.ok.inj h
      rw [firstPoint_ok] at hfirst
      rw [lastPoint_ok] at hlast
      have hpath : (⟨.kept de.edge, de.direction⟩ : Piece).path cs = facing de.direction c := by
        simp [Piece.path, PieceEdge.points, hc]
      refine ⟨⟨.kept de.edge, de.direction⟩, by simp [visiblePiece, hc, hne], ?_, ?_⟩
      · rw [hpath]; cases de.direction <;> simpa [facing] using hne
      rw [hpath, hfirst]
      -- the state after the gap
      have hgap : ClipInv cs n (addKeys ks (plugKeys (gap s.previous (some first))))
          (P ++ gap s.previous (some first)) s2 ∧ s2.start = s.start.or (some first) := by
        generalize hs1 : (if s.start = none then ({ s with start := some first } : ClipRingState) else s) = s1 at hs2
        have hs1p : s1.previous = s.previous := by rw [← hs1]; split <;> rfl
        have hs1s : s1.start = s.start.or (some first) := by
          rw [← hs1]; split
          · rename_i h0; simp [h0]
          · rename_i h0
            cases hst : s.start with
            | none => exact absurd hst h0
            | some x => simp
        have hi1 : ClipInv cs n ks P s1 := by
          rw [← hs1]; split
          · exact ⟨hi.ret, hi.keys, hi.area, hi.newEdges⟩
          · exact hi
        rw [hs1p] at hs2
        obtain ⟨h1, h2, _⟩ := gap_ok hi1 hs2
        exact ⟨h1, h2.trans hs1s⟩
      obtain ⟨hg, hst⟩ := hgap
      refine ⟨⟨?_, ?_, ?_, ?_⟩, hst, hlast.symm⟩
      · simp only
        rw [plugKeys_append, plugKeys_kept, List.append_nil, hg.ret]
        simp only [List.map_append, List.append_assoc]
        rfl
      · intro k hk
        rw [plugKeys_append, plugKeys_kept, List.append_nil]
        rw [← List.append_assoc, plugKeys_append, plugKeys_kept, List.append_nil] at hk
        exact hg.keys k hk
      · simp only
        rw [i64_ok_wrap ha, signedArea2_ok ht, ← List.append_assoc, piecesArea_snoc, hpath, hg.area, orient_eq]
      · simp only
        rw [plugKeys_append, plugKeys_kept, List.append_nil]
        exact hg.newEdges

theorem clipRingLoop_ok {m : Build} {cs : List (List Point)} {b : ClipBuilder} (hb : ForEdges cs b) {n : Nat}
    {des : List DirectedEdge} {ks : List (Point × Point)} {P : List Piece} {s s' : ClipRingState}
    (hi : ClipInv cs n ks P s) (h : clipRingLoop m b s des = .ok s') :
    ClipInv cs n (addKeys ks (plugKeys (bridge cs s.previous (des.filterMap (visiblePiece cs)))))
        (P ++ bridge cs s.previous (des.filterMap (visiblePiece cs))) s' ∧
      s'.start = s.start.or (startOf cs (des.filterMap (visiblePiece cs))) ∧
      s'.previous = (endOf cs (des.filterMap (visiblePiece cs))).or s.previous := by
  induction des generalizing ks P s with
  | nil =>
    obtain rfl := Except.ok.inj h
    simp only [List.filterMap_nil, bridge, List.append_nil, startOf, endOf]
    exact ⟨hi, by simp, by simp⟩
  | cons de des ih =>
    simp only [clipRingLoop, bind_ok] at h
    obtain ⟨s1, h1, h⟩ := h
    rcases clipRingStep_ok hb hi h1 with ⟨hv, rfl⟩ | ⟨pc, hv, hne, hi1, hst, hpr⟩
    · rw [List.filterMap_cons_none hv]
      exact ih hi h
    · obtain ⟨h2, h3, h4⟩ := ih hi1 h
      rw [List.filterMap_cons_some hv]
      rw [hpr] at h2 h4
      refine ⟨?_, ?_, ?_⟩
      · have : bridge cs s.previous (pc :: des.filterMap (visiblePiece cs)) =
            (gap s.previous (pc.path cs).head? ++ [pc]) ++
              bridge cs (pc.path cs).getLast? (des.filterMap (visiblePiece cs)) := by simp [bridge]
        rw [this, plugKeys_append, addKeys_append, ← List.append_assoc]
        exact h2
      · rw [h3, hst]
        obtain ⟨x, hx⟩ : ∃ x, (pc.path cs).head? = some x := by
          cases hp : pc.path cs with
          | nil => exact absurd hp hne
          | cons a l => exact ⟨a, rfl⟩
        simp only [startOf, List.head?_cons, Option.bind_some, hx]
        cases s.start <;> simp
      · rw [h4]
        have hlast : ∃ x, (pc.path cs).getLast? = some x := by
          cases hp : pc.path cs with
          | nil => exact absurd hp hne
          | cons a l => exact ⟨_, List.getLast?_cons ..⟩
        obtain ⟨x, hx⟩ := hlast
        simp only [endOf, hx]
        cases hr : (des.filterMap (visiblePiece cs)) with
        | nil => simp [hx]
        | cons a l =>
          rw [List.getLast?_cons_cons]
          have hne2 : ∀ y ∈ a :: l, y.path cs ≠ [] := by
            intro y hy
            rw [← hr] at hy
            obtain ⟨de', _, hy⟩ := List.mem_filterMap.mp hy
            unfold visiblePiece at hy
            split at hy
            · cases hy
            · rename_i hh
              obtain rfl := Option.some.inj hy
              unfold Piece.path PieceEdge.points
              simp only
              cases de'.direction <;> simpa [facing] using hh
          have hy := hne2 _ (List.getLast_mem (l := a :: l) (by simp))
          rw [List.getLast?_eq_some_getLast (by simp)]
          cases hp : ((a :: l).getLast (by simp)).path cs with
          | nil => exact absurd hp hy
          | cons c t => simp [hp, List.getLast?_cons]

theorem clipRing_ok {m : Build} {cs : List (List Point)} {b : ClipBuilder} (hb : ForEdges cs b) {n : Nat}
    {ks : List (Point × Point)} (hne : b.newEdges = ⟨n, ks.zipIdx n⟩) {ring : TopoRing}
    {x : Option BuildRing × ClipBuilder} (h : clipRing m b ring = .ok x) :
    let ps := clippedPieces cs ring
    let ks' := addKeys ks (plugKeys ps)
    x.2 = { b with newEdges := ⟨n, ks'.zipIdx n⟩ } ∧
    x.1 = if piecesArea cs ps = 0 then none else some (ps.map (toDE cs n ks')) := by
  simp only [clipRing_eq, bind_ok] at h
  obtain ⟨s, hs, s', hs', h⟩ := h
  have hi : ClipInv cs n ks [] ⟨[], 0, none, none, b.newEdges⟩ :=
    ⟨rfl, by simp [plugKeys], by simp [piecesArea, shoelaceEdges, wrap64], hne⟩
  obtain ⟨h1, h2, h3⟩ := clipRingLoop_ok hb hi hs
  simp only [Option.none_or, Option.or_none, List.nil_append] at h1 h2 h3
  have hfin : ClipInv cs n (addKeys ks (plugKeys (clippedPieces cs ring))) (clippedPieces cs ring) s' := by
    unfold clippedPieces closeUp
    rw [plugKeys_append, addKeys_append]
    rw [h2, h3] at hs'
    exact (gap_ok h1 hs').1
  split at h
  · rename_i ha
    obtain rfl := Except.ok.inj h
    rw [hfin.area] at ha
    simp only [hfin.newEdges, ha, if_true, and_self]
  · rename_i ha
    obtain rfl := Except.ok.inj h
    rw [hfin.area] at ha
    simp only [hfin.newEdges, ha, if_false, hfin.ret, and_self]

/-! ## Regions -/

theorem clipRings_ok {m : Build} {cs : List (List Point)} {rings : List TopoRing} {b : ClipBuilder}
    (hb : ForEdges cs b) {n : Nat} {ks : List (Point × Point)} (hne : b.newEdges = ⟨n, ks.zipIdx n⟩)
    {x : List BuildRing × ClipBuilder} (h : clipRings m b rings = .ok x) :
    let ks' := addKeys ks (plugKeys (rings.map (clippedPieces cs)).flatten)
    x.2 = { b with newEdges := ⟨n, ks'.zipIdx n⟩ } ∧
    x.1 = (keptClipped cs rings).map fun ps => ps.map (toDE cs n ks') := by
  induction rings generalizing b ks x with
  | nil =>
    obtain rfl := Except.ok.inj h
    simp only [List.map_nil, List.flatten_nil, plugKeys, List.filterMap_nil, addKeys, List.foldl_nil, ← hne]
    exact ⟨trivial, rfl⟩
  | cons r rings ih =>
    simp only [clipRings, bind_ok] at h
    obtain ⟨⟨o, b1⟩, h1, ⟨rs, b2⟩, h2, h⟩ := h
    obtain rfl := Except.ok.inj h
    obtain ⟨h3, h4⟩ := clipRing_ok hb hne h1
    simp only at h2 h3 h4
    obtain ⟨h5, h6⟩ := ih (b := b1) (by subst h3; exact ⟨hb.oldEdges, hb.finder⟩) (by rw [h3]) h2
    simp only at h5 h6
    simp only [List.map_cons, List.flatten_cons, plugKeys_append, addKeys_append]
    refine ⟨by rw [h5, h3], ?_⟩
    rw [h4, h6]
    simp only [keptClipped, List.map_cons]
    by_cases ha : piecesArea cs (clippedPieces cs r) = 0
    · simp [ha]
    · rw [if_neg ha, List.filter_cons_of_pos (by simpa using ha), List.map_cons]
      rw [toDE_prefix (addKeys_prefix _ _) (fun k hk => mem_addKeys.mpr (Or.inr hk))]
      rfl

/-- The pieces of all rings that are clipped: the inner rings of a region
without visible outer rings are not looked at. -/
def triedPieces {δ : Type} (cs : List (List Point)) (rs : List (TopoRegion δ)) : List Piece :=
  rs.flatMap fun r => (r.outerRings.map (clippedPieces cs)).flatten ++
    if keptClipped cs r.outerRings = [] then [] else (r.innerRings.map (clippedPieces cs)).flatten

/-- A clipped region with edge ids. -/
def toBuild {δ : Type} (cs : List (List Point)) (n : Nat) (ks : List (Point × Point)) (r : ClippedRegion δ) :
    BuildRegion δ :=
  ⟨r.data, r.outer.map fun ps => ps.map (toDE cs n ks), r.inner.map fun ps => ps.map (toDE cs n ks)⟩

theorem clippedRegions_cons {δ : Type} (cs : List (List Point)) (r : TopoRegion δ) (rs : List (TopoRegion δ)) :
    clippedRegions cs (r :: rs) = (if keptClipped cs r.outerRings = [] then []
      else [⟨r.data, keptClipped cs r.outerRings, keptClipped cs r.innerRings⟩]) ++ clippedRegions cs rs := by
  unfold clippedRegions
  by_cases h : keptClipped cs r.outerRings = [] <;> simp [h]

theorem kept_mem_tried {cs : List (List Point)} {rings : List TopoRing} {ps : List Piece}
    (h : ps ∈ keptClipped cs rings) : ∀ k ∈ plugKeys ps, k ∈ plugKeys (rings.map (clippedPieces cs)).flatten := by
  intro k hk
  have := (List.mem_filter.mp h).1
  obtain ⟨pc, hpc, hk⟩ := List.mem_filterMap.mp hk
  exact List.mem_filterMap.mpr ⟨pc, List.mem_flatten.mpr ⟨ps, this, hpc⟩, hk⟩

theorem toDE_rings_prefix {cs : List (List Point)} {n : Nat} {ks ks' : List (Point × Point)} {rings : List (List Piece)}
    (hp : ks <+: ks') (hk : ∀ ps ∈ rings, ∀ k ∈ plugKeys ps, k ∈ ks) :
    (rings.map fun ps => ps.map (toDE cs n ks')) = rings.map fun ps => ps.map (toDE cs n ks) :=
  List.map_congr_left fun ps hps => toDE_prefix hp (hk ps hps)

theorem clipRegions_ok {δ : Type} {m : Build} {cs : List (List Point)} {rs : List (TopoRegion δ)} {b : ClipBuilder}
    (hb : ForEdges cs b) {n : Nat} {ks : List (Point × Point)} (hne : b.newEdges = ⟨n, ks.zipIdx n⟩)
    {x : List (BuildRegion δ) × ClipBuilder} (h : clipRegions m b rs = .ok x) :
    let ks' := addKeys ks (plugKeys (triedPieces cs rs))
    x.2 = { b with newEdges := ⟨n, ks'.zipIdx n⟩ } ∧ x.1 = (clippedRegions cs rs).map (toBuild cs n ks') := by
  induction rs generalizing b ks x with
  | nil =>
    obtain rfl := Except.ok.inj h
    simp only [triedPieces, List.flatMap_nil, plugKeys, List.filterMap_nil, addKeys, List.foldl_nil, ← hne]
    exact ⟨trivial, rfl⟩
  | cons r rs ih =>
    simp only [clipRegions, bind_ok] at h
    obtain ⟨⟨o, b1⟩, h1, ⟨rs', b2⟩, h2, h⟩ := h
    obtain rfl := Except.ok.inj h
    simp only [clipRegion, bind_ok] at h1
    obtain ⟨⟨outer, b3⟩, h3, h1⟩ := h1
    obtain ⟨h4, h5⟩ := clipRings_ok hb hne h3
    simp only at h1 h2 h4 h5
    have hb3 : ForEdges cs b3 := by subst h4; exact ⟨hb.oldEdges, hb.finder⟩
    have hne3 : b3.newEdges = ⟨n, (addKeys ks (plugKeys (r.outerRings.map (clippedPieces cs)).flatten)).zipIdx n⟩ := by
      rw [h4]
    rw [clippedRegions_cons]
    have htried : triedPieces cs (r :: rs) = ((r.outerRings.map (clippedPieces cs)).flatten ++
      if keptClipped cs r.outerRings = [] then [] else (r.innerRings.map (clippedPieces cs)).flatten) ++
        triedPieces cs rs := by simp [triedPieces]
    rw [htried, plugKeys_append, addKeys_append]
    split at h1
    · rename_i hlen
      rw [bind_ok] at h1
      obtain ⟨⟨inner, b4⟩, h6, h1⟩ := h1
      obtain ⟨rfl, rfl⟩ := Prod.mk.inj (Except.ok.inj h1)
      obtain ⟨h7, h8⟩ := clipRings_ok hb3 hne3 h6
      simp only at h7 h8
      have hk : keptClipped cs r.outerRings ≠ [] := by
        intro h0; rw [h0] at h5; simp [h5] at hlen
      obtain ⟨h9, h10⟩ := ih (b := b4) (by subst h7; exact ⟨hb3.oldEdges, hb3.finder⟩) (by rw [h7]) h2
      simp only at h9 h10
      rw [if_neg hk, if_neg hk, plugKeys_append, addKeys_append]
      refine ⟨by rw [h9, h7, h4], ?_⟩
      rw [h10, List.map_append, List.map_singleton]
      simp only [Option.toList_some, toBuild]
      rw [h5, h8]
      congr 3
      · refine (toDE_rings_prefix ((addKeys_prefix _ _).trans (addKeys_prefix _ _)) ?_).symm
        intro ps hps k hk
        exact mem_addKeys.mpr (Or.inr (kept_mem_tried hps k hk))
      · refine (toDE_rings_prefix (addKeys_prefix _ _) ?_).symm
        intro ps hps k hk
        exact mem_addKeys.mpr (Or.inr (kept_mem_tried hps k hk))
    · rename_i hlen
      obtain ⟨rfl, rfl⟩ := Prod.mk.inj (Except.ok.inj h1)
      have hk : keptClipped cs r.outerRings = [] := by
        rw [h5] at hlen
        simpa using hlen
      obtain ⟨h9, h10⟩ := ih hb3 hne3 h2
      simp only at h9 h10
      rw [if_pos hk, if_pos hk, List.append_nil]
      refine ⟨by rw [h9, h4], ?_⟩
      rw [h10]; rfl

/-! ## Panics -/

theorem plugGap_onlyOverflow (m : Build) (s : ClipRingState) (o1 o2 : Option Point) :
    OnlyOverflow m (plugGap m s o1 o2) := by
  unfold plugGap
  split
  · split
    · exact plug_onlyOverflow m s _ _
    · exact OnlyOverflow.ok _
  · exact OnlyOverflow.ok _

theorem i64_onlyOverflow (m : Build) (z : Int) : OnlyOverflow m (m.i64 z) := fun _ he =>
  ⟨(i64_error.mp he).1, (i64_error.mp he).2.1⟩

theorem signedArea2_onlyOverflow (m : Build) (l : List Point) : OnlyOverflow m (signedArea2 m l) := fun _ he =>
  signedArea2_error he

theorem clipRingStep_onlyOverflow {m : Build} {cs : List (List Point)} {b : ClipBuilder} (hb : ForEdges cs b)
    (s : ClipRingState) {de : DirectedEdge} (hde : de.edge < cs.length) : OnlyOverflow m (clipRingStep m b s de) := by
  rw [clipRingStep_eq]
  simp only [ClipBuilder.findOldEdgeId, hb.finder, finderOf_getElem?, List.getElem?_eq_getElem hde, Option.map_some,
    ok_bind]
  by_cases hc : cs[de.edge] = []
  · simp only [hc, if_true]; exact OnlyOverflow.ok _
  · simp only [hc, if_false, Nat.zero_add, hb.oldEdges]
    rw [filter_getElem?_newId (List.getElem?_eq_getElem hde) hc]
    simp only [clipRingVisible]
    have hf : facing de.direction cs[de.edge] ≠ [] := by cases de.direction <;> simpa [facing] using hc
    have hfirst : firstPoint cs[de.edge] de.direction = .ok ((facing de.direction cs[de.edge]).head hf) := by
      rw [firstPoint_ok, List.head?_eq_some_head hf]
    have hlast : lastPoint cs[de.edge] de.direction = .ok ((facing de.direction cs[de.edge]).getLast hf) := by
      rw [lastPoint_ok, List.getLast?_eq_some_getLast hf]
    rw [hfirst, hlast, ok_bind]
    refine OnlyOverflow.bind (plugGap_onlyOverflow _ _ _ _) fun s2 _ => ?_
    rw [ok_bind]
    refine OnlyOverflow.bind (signedArea2_onlyOverflow _ _) fun t _ => ?_
    exact OnlyOverflow.bind (i64_onlyOverflow _ _) fun a _ => OnlyOverflow.ok _

theorem clipRingLoop_onlyOverflow {m : Build} {cs : List (List Point)} {b : ClipBuilder} (hb : ForEdges cs b)
    (des : List DirectedEdge) (s : ClipRingState) (hde : ∀ de ∈ des, de.edge < cs.length) :
    OnlyOverflow m (clipRingLoop m b s des) := by
  induction des generalizing s with
  | nil => exact OnlyOverflow.ok _
  | cons de des ih =>
    exact OnlyOverflow.bind (clipRingStep_onlyOverflow hb s (hde de (by simp)))
      fun s1 _ => ih s1 (fun d hd => hde d (by simp [hd]))

theorem clipRing_onlyOverflow {m : Build} {cs : List (List Point)} {b : ClipBuilder} (hb : ForEdges cs b)
    {ring : TopoRing} (hde : ∀ de ∈ ring.directedEdges, de.edge < cs.length) :
    OnlyOverflow m (clipRing m b ring) := by
  rw [clipRing_eq]
  refine OnlyOverflow.bind (clipRingLoop_onlyOverflow hb _ _ hde) fun s _ => ?_
  refine OnlyOverflow.bind (plugGap_onlyOverflow _ _ _ _) fun s' _ => ?_
  split <;> exact OnlyOverflow.ok _

/-- A builder that differs only in its new edges. -/
theorem clipRing_forEdges {m : Build} {cs : List (List Point)} {b : ClipBuilder} (hb : ForEdges cs b)
    {ring : TopoRing} {x : Option BuildRing × ClipBuilder} (h : clipRing m b ring = .ok x) : ForEdges cs x.2 := by
  rw [clipRing_eq] at h
  simp only [bind_ok] at h
  obtain ⟨s, _, s', _, h⟩ := h
  split at h <;> obtain rfl := Except.ok.inj h <;> exact ⟨hb.oldEdges, hb.finder⟩

theorem clipRings_forEdges {m : Build} {cs : List (List Point)} {rings : List TopoRing} {b : ClipBuilder}
    (hb : ForEdges cs b) {x : List BuildRing × ClipBuilder} (h : clipRings m b rings = .ok x) : ForEdges cs x.2 := by
  induction rings generalizing b x with
  | nil => obtain rfl := Except.ok.inj h; exact hb
  | cons r rings ih =>
    simp only [clipRings, bind_ok] at h
    obtain ⟨⟨o, b1⟩, h1, ⟨rs, b2⟩, h2, h⟩ := h
    obtain rfl := Except.ok.inj h
    exact ih (x := (rs, b2)) (clipRing_forEdges hb h1) h2

theorem clipRings_onlyOverflow {m : Build} {cs : List (List Point)} {rings : List TopoRing} {b : ClipBuilder}
    (hb : ForEdges cs b) (hde : ∀ r ∈ rings, ∀ de ∈ r.directedEdges, de.edge < cs.length) :
    OnlyOverflow m (clipRings m b rings) := by
  induction rings generalizing b with
  | nil => exact OnlyOverflow.ok _
  | cons r rings ih =>
    refine OnlyOverflow.bind (clipRing_onlyOverflow hb (hde r (by simp))) fun x hx => ?_
    exact OnlyOverflow.bind (ih (clipRing_forEdges hb hx) (fun r hr => hde r (by simp [hr])))
      fun y _ => OnlyOverflow.ok _

theorem clipRegions_onlyOverflow {δ : Type} {m : Build} {cs : List (List Point)} {rs : List (TopoRegion δ)}
    {b : ClipBuilder} (hb : ForEdges cs b)
    (hde : ∀ r ∈ rs, ∀ ring ∈ r.outerRings ++ r.innerRings, ∀ de ∈ ring.directedEdges, de.edge < cs.length) :
    OnlyOverflow m (clipRegions m b rs) := by
  induction rs generalizing b with
  | nil => exact OnlyOverflow.ok _
  | cons r rs ih =>
    have hr := hde r (by simp)
    refine OnlyOverflow.bind ?_ fun x hx => ?_
    · refine OnlyOverflow.bind (clipRings_onlyOverflow hb (fun ring hring => hr ring (by simp [hring]))) fun x hx => ?_
      have hb1 := clipRings_forEdges hb hx
      obtain ⟨outer, b1⟩ := x
      simp only
      split
      · exact OnlyOverflow.bind (clipRings_onlyOverflow hb1 (fun ring hring => hr ring (by simp [hring])))
          fun y _ => OnlyOverflow.ok _
      · exact OnlyOverflow.ok _
    · have hb1 : ForEdges cs x.2 := by
        simp only [clipRegion, bind_ok] at hx
        obtain ⟨⟨outer, b1⟩, h1, hx⟩ := hx
        have hb1 := clipRings_forEdges hb h1
        simp only at hx
        split at hx
        · rw [bind_ok] at hx
          obtain ⟨⟨inner, b2⟩, h2, hx⟩ := hx
          obtain rfl := Except.ok.inj hx
          exact clipRings_forEdges hb1 h2
        · obtain rfl := Except.ok.inj hx
          exact hb1
      exact OnlyOverflow.bind (ih hb1 (fun r hr => hde r (by simp [hr]))) fun y _ => OnlyOverflow.ok _

/-! ## Placing new edges -/

theorem placeNewEdges_ok {first : Nat} {order : List ((Point × Point) × Nat)} {slots : List (Point × Point)}
    (hlt : ∀ x ∈ order, first ≤ x.2 ∧ x.2 < first + slots.length) (hnd : (order.map Prod.snd).Nodup) :
    ∃ out, placeNewEdges first slots order = .ok out ∧ out.length = slots.length ∧
      (∀ k i, (k, i) ∈ order → out[i - first]? = some k) ∧
      (∀ i, (∀ k, (k, first + i) ∉ order) → out[i]? = slots[i]?) := by
  induction order generalizing slots with
  | nil => exact ⟨slots, rfl, rfl, by simp, by simp⟩
  | cons x rest ih =>
    obtain ⟨k, id⟩ := x
    have hid := hlt (k, id) (by simp)
    simp only at hid
    have hid' : id - first < slots.length := by omega
    rw [List.map_cons, List.nodup_cons] at hnd
    obtain ⟨out, h1, h2, h3, h4⟩ := ih (slots := slots.set (id - first) k)
      (by intro x hx; rw [List.length_set]; exact hlt x (by simp [hx])) hnd.2
    refine ⟨out, ?_, by simpa using h2, ?_, ?_⟩
    · simp only [placeNewEdges, vecSet, hid', if_true, ok_bind]; exact h1
    · intro k' i hk
      rw [List.mem_cons] at hk
      rcases hk with hk | hk
      · obtain ⟨rfl, rfl⟩ := Prod.mk.inj hk
        have := h4 (i - first) (fun k'' hk'' => hnd.1 (List.mem_map.mpr ⟨(k'', i), by
          rw [show first + (i - first) = i by omega] at hk''; exact hk'', rfl⟩))
        rw [this]
        simp [hid']
      · exact h3 k' i hk
    · intro i hi
      rw [h4 i (fun k' hk' => hi k' (by simp [hk']))]
      have : id - first ≠ i := fun h => hi k (by rw [show first + i = id by omega]; simp)
      simp [List.getElem?_set, this]

theorem placeNewEdges_perm {n : Nat} {ks : List (Point × Point)} {order : List ((Point × Point) × Nat)}
    (hp : order.Perm (ks.zipIdx n)) (d : Point × Point) :
    placeNewEdges n (List.replicate ks.length d) order = .ok ks := by
  have hnd : (order.map Prod.snd).Nodup := by
    rw [(hp.map Prod.snd).nodup_iff, List.zipIdx_map_snd]
    exact List.nodup_range'
  have hmem : ∀ k i, (k, i) ∈ order ↔ n ≤ i ∧ ks[i - n]? = some k := by
    intro k i
    rw [hp.mem_iff, List.mk_mem_zipIdx_iff_le_and_getElem?_sub]
  obtain ⟨out, h1, h2, h3, h4⟩ := placeNewEdges_ok (first := n) (order := order) (slots := List.replicate ks.length d)
    (by
      rintro ⟨k, i⟩ hx
      rw [hmem] at hx
      rw [List.length_replicate]
      have := (List.getElem?_eq_some_iff.mp hx.2).1
      simp only
      omega) hnd
  rw [h1]
  congr 1
  apply List.ext_getElem?
  intro i
  by_cases hi : i < ks.length
  · have : (ks[i], n + i) ∈ order := (hmem _ _).mpr ⟨by omega, by
      rw [show n + i - n = i by omega]; exact List.getElem?_eq_getElem hi⟩
    have := h3 _ _ this
    rw [show n + i - n = i by omega] at this
    rw [this, List.getElem?_eq_getElem hi]
  · rw [List.getElem?_eq_none (by rw [h2, List.length_replicate]; omega),
      List.getElem?_eq_none (by omega)]

/-! ## The whole function -/

/-- The keys of the new edges. -/
def newKeys {δ : Type} (cs : List (List Point)) (t : Topology δ) : List (Point × Point) :=
  addKeys [] (plugKeys (triedPieces cs t.regions))

/-- The points of all edges of the clipped topology. -/
def clippedPoints {δ : Type} (cs : List (List Point)) (t : Topology δ) : List (List Point) :=
  cs.filter (· ≠ []) ++ (newKeys cs t).map fun k => [k.1, k.2]

/-- The directed edges of the clipped topology. -/
def clippedBuild {δ : Type} (cs : List (List Point)) (t : Topology δ) : List (BuildRegion δ) :=
  (clippedRegions cs t.regions).map (toBuild cs (cs.filter (· ≠ [])).length (newKeys cs t))

theorem clipBuilder_new_ok {m : Build} {mask : ClipMask} {edges : List TopoEdge} {b : ClipBuilder}
    (h : ClipBuilder.new m mask edges = .ok b) :
    ∃ cs, ClippedBy m mask edges cs ∧ ForEdges cs b ∧ b.newEdges = ⟨(cs.filter (· ≠ [])).length, []⟩ := by
  simp only [ClipBuilder.new, bind_ok] at h
  obtain ⟨x, hx, h⟩ := h
  obtain rfl := Except.ok.inj h
  obtain ⟨cs, h1, h2, h3⟩ := clipOldEdges_ok hx
  refine ⟨cs, h1, ⟨by simpa using h2, by simpa using h3⟩, ?_⟩
  rw [h2]; rfl

/-- `clip_topology` up to the point where the hash map is iterated. -/
theorem clipBuilder_ok {δ : Type} {m : Build} {mask : ClipMask} {t : Topology δ} {b b' : ClipBuilder}
    {regions : List (BuildRegion δ)} (h1 : ClipBuilder.new m mask t.edges = .ok b)
    (h2 : clipRegions m b t.regions = .ok (regions, b')) :
    ∃ cs, ClippedBy m mask t.edges cs ∧ ForEdges cs b' ∧
      b'.newEdges = ⟨(cs.filter (· ≠ [])).length, (newKeys cs t).zipIdx (cs.filter (· ≠ [])).length⟩ ∧
      regions = clippedBuild cs t := by
  obtain ⟨cs, h3, h4, h5⟩ := clipBuilder_new_ok h1
  obtain ⟨h6, h7⟩ := clipRegions_ok (ks := []) h4 h5 h2
  simp only at h6 h7
  refine ⟨cs, h3, ?_, by rw [h6]; rfl, h7⟩
  rw [h6]; exact ⟨h4.oldEdges, h4.finder⟩

theorem clip_intoTopology_eq {δ : Type} {cs : List (List Point)} {t : Topology δ} {b : ClipBuilder}
    (hb : ForEdges cs b)
    (hne : b.newEdges = ⟨(cs.filter (· ≠ [])).length, (newKeys cs t).zipIdx (cs.filter (· ≠ [])).length⟩)
    {order : List ((Point × Point) × Nat)} (ho : order.Perm b.newEdges.edges) (regions : List (BuildRegion δ)) :
    b.intoTopologyWith regions order = finishTopology (clippedPoints cs t) regions := by
  unfold ClipBuilder.intoTopologyWith
  rw [hne] at ho ⊢
  simp only [List.length_zipIdx]
  rw [placeNewEdges_perm ho, ok_bind, hb.oldEdges]
  rfl

theorem clipTopology_ok {δ : Type} {m : Build} {mask : ClipMask} {t t' : Topology δ}
    (h : clipTopology m t mask = .ok t') :
    ∃ cs, ClippedBy m mask t.edges cs ∧ finishTopology (clippedPoints cs t) (clippedBuild cs t) = .ok t' := by
  simp only [clipTopology, bind_ok] at h
  obtain ⟨b, h1, ⟨regions, b'⟩, h2, h⟩ := h
  obtain ⟨cs, h3, h4, h5, h6⟩ := clipBuilder_ok h1 h2
  simp only at h
  rw [clip_intoTopology_eq h4 h5 (List.Perm.refl _), h6] at h
  exact ⟨cs, h3, h⟩

/-- Without overflow, and with edge pointers into the topology, everything up
to the last step succeeds. -/
theorem clipTopology_release {δ : Type} (mask : ClipMask) (t : Topology δ)
    (hde : ∀ de ∈ allDirectedEdges t, de.edge < t.edges.length) :
    ∃ cs, ClippedBy .release mask t.edges cs ∧
      clipTopology .release t mask = finishTopology (clippedPoints cs t) (clippedBuild cs t) := by
  have hnew : ∃ b, ClipBuilder.new .release mask t.edges = .ok b := by
    apply OnlyOverflow.release
    exact OnlyOverflow.bind (clipOldEdges_onlyOverflow _ _ _ _ _) fun x _ => OnlyOverflow.ok _
  obtain ⟨b, h1⟩ := hnew
  obtain ⟨cs0, hcs0, hb0, _⟩ := clipBuilder_new_ok h1
  have hlen := hcs0.length_eq
  have hreg : ∃ x, clipRegions .release b t.regions = .ok x := by
    apply OnlyOverflow.release
    apply clipRegions_onlyOverflow hb0
    intro r hr ring hring de hd
    rw [← hlen]
    apply hde
    exact List.mem_flatMap.mpr ⟨ring, List.mem_flatMap.mpr ⟨r, hr, hring⟩, hd⟩
  obtain ⟨⟨regions, b'⟩, h2⟩ := hreg
  obtain ⟨cs, h3, h4, h5, h6⟩ := clipBuilder_ok h1 h2
  refine ⟨cs, h3, ?_⟩
  unfold clipTopology
  rw [h1, ok_bind, h2, ok_bind]
  simp only
  rw [clip_intoTopology_eq h4 h5 (List.Perm.refl _), h6]

/-! ## Which pieces occur -/

/-- The piece edges that can occur when the plugs have keys `ks`. -/
def ValidEdge (cs : List (List Point)) (ks : List (Point × Point)) : PieceEdge → Prop
  | .kept i => ∃ c, cs[i]? = some c ∧ c ≠ []
  | .plug p q => (p, q) ∈ ks

theorem mem_gap {o1 o2 : Option Point} {pc : Piece} (h : pc ∈ gap o1 o2) :
    ∃ p q, o1 = some p ∧ o2 = some q ∧ p ≠ q ∧ pc = plugPiece p q := by
  cases o1 with
  | none => simp [gap] at h
  | some p =>
    cases o2 with
    | none => simp [gap] at h
    | some q =>
      simp only [gap] at h
      split at h
      · simp at h
      · rename_i hpq
        exact ⟨p, q, rfl, rfl, hpq, by simpa using h⟩

theorem mem_bridge {cs : List (List Point)} {prev : Option Point} {ps : List Piece} {pc : Piece}
    (h : pc ∈ bridge cs prev ps) : pc ∈ ps ∨ ∃ p q, p ≠ q ∧ pc = plugPiece p q := by
  induction ps generalizing prev with
  | nil => simp [bridge] at h
  | cons e rest ih =>
    simp only [bridge, List.mem_append, List.mem_cons] at h
    rcases h with h | h | h
    · obtain ⟨p, q, _, _, h1, h2⟩ := mem_gap h
      exact Or.inr ⟨p, q, h1, h2⟩
    · exact Or.inl (by simp [h])
    · rcases ih h with h | h
      · exact Or.inl (by simp [h])
      · exact Or.inr h

theorem mem_clippedPieces {cs : List (List Point)} {ring : TopoRing} {pc : Piece}
    (h : pc ∈ clippedPieces cs ring) :
    (∃ de ∈ ring.directedEdges, visiblePiece cs de = some pc) ∨ ∃ p q, p ≠ q ∧ pc = plugPiece p q := by
  unfold clippedPieces closeUp at h
  rw [List.mem_append] at h
  rcases h with h | h
  · rcases mem_bridge h with h | h
    · exact Or.inl (List.mem_filterMap.mp h)
    · exact Or.inr h
  · obtain ⟨p, q, _, _, h1, h2⟩ := mem_gap h
    exact Or.inr ⟨p, q, h1, h2⟩

theorem visiblePiece_some {cs : List (List Point)} {de : DirectedEdge} {pc : Piece} (h : visiblePiece cs de = some pc) :
    pc = ⟨.kept de.edge, de.direction⟩ ∧ ∃ c, cs[de.edge]? = some c ∧ c ≠ [] := by
  unfold visiblePiece at h
  split at h
  · cases h
  · rename_i hne
    refine ⟨(Option.some.inj h).symm, ?_⟩
    cases hc : cs[de.edge]? with
    | none => rw [hc] at hne; simp at hne
    | some c => exact ⟨c, rfl, by rw [hc] at hne; simpa using hne⟩

theorem mem_allPieces {δ : Type} {cs : List (List Point)} {rs : List (TopoRegion δ)} {pc : Piece}
    (h : pc ∈ allPieces (clippedRegions cs rs)) :
    pc ∈ triedPieces cs rs ∧ ∃ r ∈ rs, ∃ ring ∈ r.outerRings ++ r.innerRings, pc ∈ clippedPieces cs ring := by
  simp only [allPieces, clippedRegions, List.mem_flatMap, List.mem_map] at h
  obtain ⟨_, ⟨r, hr, rfl⟩, h⟩ := h
  obtain ⟨hr, hne⟩ := List.mem_filter.mp hr
  have hne : keptClipped cs r.outerRings ≠ [] := by simpa using hne
  simp only [List.mem_append, List.mem_flatten, keptClipped, List.mem_filter, List.mem_map] at h
  refine ⟨List.mem_flatMap.mpr ⟨r, hr, ?_⟩, r, hr, ?_⟩
  · rw [if_neg hne]
    simp only [List.mem_append, List.mem_flatten, List.mem_map]
    rcases h with ⟨l, ⟨h1, _⟩, h2⟩ | ⟨l, ⟨h1, _⟩, h2⟩
    · exact Or.inl ⟨l, h1, h2⟩
    · exact Or.inr ⟨l, h1, h2⟩
  · rcases h with ⟨l, ⟨⟨ring, hring, rfl⟩, _⟩, h2⟩ | ⟨l, ⟨⟨ring, hring, rfl⟩, _⟩, h2⟩
    · exact ⟨ring, by simp [hring], h2⟩
    · exact ⟨ring, by simp [hring], h2⟩

theorem valid_of_mem {δ : Type} {cs : List (List Point)} {t : Topology δ} {pc : Piece}
    (h : pc ∈ allPieces (clippedRegions cs t.regions)) : ValidEdge cs (newKeys cs t) pc.edge := by
  obtain ⟨h1, r, _, ring, _, h2⟩ := mem_allPieces h
  cases he : pc.edge with
  | kept i =>
    rcases mem_clippedPieces h2 with ⟨de, _, hv⟩ | ⟨p, q, _, rfl⟩
    · obtain ⟨rfl, c, hc⟩ := visiblePiece_some hv
      cases he
      exact ⟨c, hc⟩
    · unfold plugPiece at he; split at he <;> cases he
  | plug p q =>
    refine mem_addKeys.mpr (Or.inr (List.mem_filterMap.mpr ⟨pc, h1, ?_⟩))
    rw [he]

theorem clippedPoints_place {δ : Type} {cs : List (List Point)} {t : Topology δ} {e : PieceEdge}
    (h : ValidEdge cs (newKeys cs t) e) :
    (clippedPoints cs t)[place cs (cs.filter (· ≠ [])).length (newKeys cs t) e]? = some (e.points cs) := by
  cases e with
  | kept i =>
    obtain ⟨c, hc, hne⟩ := h
    have := filter_getElem?_newId hc hne
    unfold clippedPoints place
    rw [List.getElem?_append_left (List.getElem?_eq_some_iff.mp this).1, this]
    simp [PieceEdge.points, hc]
  | plug p q =>
    simp only [clippedPoints, place]
    rw [List.getElem?_append_right (by omega), Nat.add_sub_cancel_left, List.getElem?_map,
      getElem?_keyIdx h]
    rfl

theorem place_inj {δ : Type} {cs : List (List Point)} {t : Topology δ} {e f : PieceEdge}
    (he : ValidEdge cs (newKeys cs t) e) (hf : ValidEdge cs (newKeys cs t) f)
    (h : place cs (cs.filter (· ≠ [])).length (newKeys cs t) e =
      place cs (cs.filter (· ≠ [])).length (newKeys cs t) f) : e = f := by
  have hlt : ∀ i c, cs[i]? = some c → c ≠ [] → newId cs i < (cs.filter (· ≠ [])).length := fun i c hc hne =>
    (List.getElem?_eq_some_iff.mp (filter_getElem?_newId hc hne)).1
  cases e with
  | kept i =>
    obtain ⟨c, hc, hne⟩ := he
    cases f with
    | kept j =>
      obtain ⟨d, hd, hne'⟩ := hf
      rw [newId_inj hc hne hd hne' h]
    | plug p q =>
      have := hlt i c hc hne
      simp only [place] at h
      omega
  | plug p q =>
    cases f with
    | kept j =>
      obtain ⟨d, hd, hne'⟩ := hf
      have := hlt j d hd hne'
      simp only [place] at h
      omega
    | plug p' q' =>
      simp only [place] at h
      have := keyIdx_inj he hf (by omega)
      obtain ⟨rfl, rfl⟩ := Prod.mk.inj this
      rfl

theorem walk_toDE {δ : Type} {cs : List (List Point)} {t t' : Topology δ}
    (hp : t'.edges.map (·.points) = clippedPoints cs t) {pc : Piece} (h : ValidEdge cs (newKeys cs t) pc.edge) :
    walk t'.edges (toDE cs (cs.filter (· ≠ [])).length (newKeys cs t) pc) = some (pc.path cs) := by
  rw [walk_eq, hp]
  simp only [toDE]
  rw [clippedPoints_place h]
  unfold Piece.path
  cases pc.direction <;> rfl

theorem clippedBuild_inBounds {δ : Type} (cs : List (List Point)) (t : Topology δ) :
    ∀ r ∈ clippedBuild cs t, InBounds (clippedPoints cs t).length r := by
  intro r hr
  obtain ⟨k, hk, rfl⟩ := List.mem_map.mp hr
  intro ring hring de hde
  have : ∃ pc ∈ allPieces (clippedRegions cs t.regions),
      de = toDE cs (cs.filter (· ≠ [])).length (newKeys cs t) pc := by
    simp only [toBuild, List.mem_append, List.mem_map] at hring
    rcases hring with ⟨ps, hps, rfl⟩ | ⟨ps, hps, rfl⟩ <;>
    · obtain ⟨pc, hpc, rfl⟩ := List.mem_map.mp hde
      refine ⟨pc, List.mem_flatMap.mpr ⟨k, hk, ?_⟩, rfl⟩
      simp only [List.mem_append, List.mem_flatten]
      first
      | exact Or.inl ⟨ps, hps, hpc⟩
      | exact Or.inr ⟨ps, hps, hpc⟩
  obtain ⟨pc, hpc, rfl⟩ := this
  exact (List.getElem?_eq_some_iff.mp (clippedPoints_place (valid_of_mem hpc))).1

theorem regionsUses_edges {δ : Type} (n : Nat) (rs : List (BuildRegion δ)) :
    (regionsUses n rs).map (·.2) = rs.flatMap fun r => (r.outerRings.flatten ++ r.innerRings.flatten).map (·.edge) := by
  have hr : ∀ (rings : List (List DirectedEdge)) (n : Nat) (inner : Bool) (j : Nat),
      (ringsUses n inner j rings).map (·.2) = rings.flatten.map (·.edge) := by
    intro rings
    induction rings with
    | nil => intros; rfl
    | cons r rings ih =>
      intro n inner j
      simp only [ringsUses, List.map_append, ih, List.flatten_cons]
      congr 1
      simp [ringUses]
  induction rs generalizing n with
  | nil => rfl
  | cons r rs ih => simp only [regionsUses, List.map_append, hr, ih, List.flatMap_cons]

theorem usersOf_clipped {δ : Type} (cs : List (List Point)) (t : Topology δ) (i : Nat) :
    (usersOf (regionsUses 0 (clippedBuild cs t)) i).length =
      ((allPieces (clippedRegions cs t.regions)).filter fun pc =>
        place cs (cs.filter (· ≠ [])).length (newKeys cs t) pc.edge = i).length := by
  have h1 : ∀ u : Uses, (usersOf u i).length = ((u.map (·.2)).filter (· = i)).length := by
    intro u
    unfold usersOf
    rw [List.length_map, List.filter_map, List.length_map]
    rfl
  have h2 : (clippedBuild cs t).flatMap (fun r => (r.outerRings.flatten ++ r.innerRings.flatten).map (·.edge)) =
      (allPieces (clippedRegions cs t.regions)).map
        (fun pc => place cs (cs.filter (· ≠ [])).length (newKeys cs t) pc.edge) := by
    unfold clippedBuild allPieces
    rw [List.flatMap_map, List.map_flatMap]
    congr 1
    funext r
    simp only [toBuild, ← List.map_flatten, List.map_append, List.map_map]
    rfl
  rw [h1, regionsUses_edges, h2, List.filter_map, List.length_map]
  rfl

/-! ## Closed rings -/

theorem leads_append {l1 l2 : List (List Point)} {a b c : Point} (h1 : Leads a l1 b) (h2 : Leads b l2 c) :
    Leads a (l1 ++ l2) c := by
  induction l1 generalizing a with
  | nil => cases h1; exact h2
  | cons e l ih =>
    obtain ⟨he, d, hd, h1⟩ := h1
    exact ⟨he, d, hd, ih h1⟩

theorem leads_gap (cs : List (List Point)) (p q : Point) : Leads p ((gap (some p) (some q)).map (Piece.path cs)) q := by
  simp only [gap]
  by_cases h : p = q
  · rw [if_pos h]; exact h
  · rw [if_neg h]
    simp only [List.map_cons, List.map_nil, path_plugPiece]
    exact ⟨rfl, q, rfl, rfl⟩

theorem leads_bridge (cs : List (List Point)) (ps : List Piece) (hne : ∀ pc ∈ ps, pc.path cs ≠ []) (a : Point) :
    ∃ b, (endOf cs ps).or (some a) = some b ∧ Leads a ((bridge cs (some a) ps).map (Piece.path cs)) b := by
  induction ps generalizing a with
  | nil => exact ⟨a, rfl, rfl⟩
  | cons e rest ih =>
    have he := hne e (by simp)
    obtain ⟨x, hx⟩ : ∃ x, (e.path cs).head? = some x := ⟨_, List.head?_eq_some_head he⟩
    obtain ⟨y, hy⟩ : ∃ y, (e.path cs).getLast? = some y := ⟨_, List.getLast?_eq_some_getLast he⟩
    obtain ⟨b, hb, hl⟩ := ih (fun pc h => hne pc (by simp [h])) y
    refine ⟨b, ?_, ?_⟩
    · cases rest with
      | nil => simpa [endOf, hy] using hb
      | cons f rest =>
        unfold endOf at hb ⊢
        rw [List.getLast?_cons_cons]
        have hlast := hne ((f :: rest).getLast (by simp)) (List.mem_cons_of_mem _ (List.getLast_mem _))
        rw [List.getLast?_eq_some_getLast (by simp), Option.bind_some, List.getLast?_eq_some_getLast hlast] at hb ⊢
        simpa using hb
    · simp only [bridge, hx, hy, List.map_append, List.map_cons]
      exact leads_append (leads_gap cs a x) ⟨hx, y, hy, hl⟩

theorem endOf_cons {cs : List (List Point)} {e : Piece} {rest : List Piece}
    (hne : ∀ pc ∈ e :: rest, pc.path cs ≠ []) :
    endOf cs (e :: rest) = (endOf cs rest).or (e.path cs).getLast? := by
  cases rest with
  | nil => simp [endOf]
  | cons f rest =>
    unfold endOf
    rw [List.getLast?_cons_cons]
    have hlast := hne ((f :: rest).getLast (by simp)) (List.mem_cons_of_mem _ (List.getLast_mem _))
    rw [List.getLast?_eq_some_getLast (by simp), Option.bind_some, List.getLast?_eq_some_getLast hlast]
    rfl

theorem closeUp_closed (cs : List (List Point)) (ps : List Piece) (hne : ∀ pc ∈ ps, pc.path cs ≠ []) (h0 : ps ≠ []) :
    ClosedRing ((closeUp cs ps).map (Piece.path cs)) := by
  match ps, h0 with
  | e :: rest, _ =>
    have he := hne e (by simp)
    obtain ⟨x, hx⟩ : ∃ x, (e.path cs).head? = some x := ⟨_, List.head?_eq_some_head he⟩
    obtain ⟨y, hy⟩ : ∃ y, (e.path cs).getLast? = some y := ⟨_, List.getLast?_eq_some_getLast he⟩
    obtain ⟨b, hb, hl⟩ := leads_bridge cs rest (fun pc h => hne pc (by simp [h])) y
    have hend : endOf cs (e :: rest) = some b := by rw [endOf_cons hne, hy]; exact hb
    have hstart : startOf cs (e :: rest) = some x := by simp [startOf, hx]
    have hg : gap none (some x) = [] := rfl
    refine ⟨by simp [closeUp, bridge], x, ?_⟩
    unfold closeUp
    rw [hend, hstart]
    simp only [bridge, hx, hy, hg, List.nil_append, List.map_append, List.map_cons]
    exact ⟨hx, y, hy, leads_append hl (leads_gap cs b x)⟩

theorem visible_path_ne_nil {cs : List (List Point)} {des : List DirectedEdge} :
    ∀ pc ∈ des.filterMap (visiblePiece cs), pc.path cs ≠ [] := by
  intro pc h
  obtain ⟨de, _, hv⟩ := List.mem_filterMap.mp h
  obtain ⟨rfl, c, hc, hne⟩ := visiblePiece_some hv
  unfold Piece.path PieceEdge.points
  simp only [hc]
  cases de.direction <;> simpa [facing] using hne

theorem clippedPieces_closed {cs : List (List Point)} {ring : TopoRing} (h : clippedPieces cs ring ≠ []) :
    ClosedRing ((clippedPieces cs ring).map (Piece.path cs)) := by
  apply closeUp_closed cs _ visible_path_ne_nil
  intro h0
  apply h
  unfold clippedPieces
  rw [h0]
  rfl

theorem kept_ne_nil {cs : List (List Point)} {rings : List TopoRing} {ps : List Piece}
    (h : ps ∈ keptClipped cs rings) : ps ≠ [] := by
  rintro rfl
  have := (List.mem_filter.mp h).2
  simp [piecesArea, shoelaceEdges, wrap64] at this

/-! ## Plugs along the mask line -/

/-- Both ends of a plug are on the mask line. -/
def PlugOnLine (mask : ClipMask) (pc : Piece) : Prop :=
  match pc.edge with
  | .plug p q => depth mask p = 0 ∧ depth mask q = 0
  | .kept _ => True

/-- What is known about the end of the visible pieces when the unclipped ring
is at `j`. -/
def AtJunction (mask : ClipMask) (j : Point) (o : Option Point) : Prop :=
  ∀ x, o = some x → (0 < depth mask j → x = j) ∧ (¬ 0 < depth mask j → depth mask x = 0)

theorem clipEdge_facing_head {m : Build} {mask : ClipMask} {pts l : List Point} (hlen : 2 ≤ pts.length)
    (h : clipEdge m mask pts = .ok l) (d : Direction) {p : Point} (hp : (facing d pts).head? = some p) :
    (0 < depth mask p → (facing d l).head? = some p) ∧ (¬ 0 < depth mask p → ∀ x ∈ (facing d l).head?, depth mask x = 0) := by
  cases d with
  | forward => exact clipEdge_first hlen h p hp
  | backward =>
    simp only [facing, List.head?_reverse] at hp ⊢
    exact clipEdge_last hlen h p hp

theorem clipEdge_facing_last {m : Build} {mask : ClipMask} {pts l : List Point} (hlen : 2 ≤ pts.length)
    (h : clipEdge m mask pts = .ok l) (d : Direction) {p : Point} (hp : (facing d pts).getLast? = some p) :
    (0 < depth mask p → (facing d l).getLast? = some p) ∧
    (¬ 0 < depth mask p → ∀ x ∈ (facing d l).getLast?, depth mask x = 0) := by
  cases d with
  | forward => exact clipEdge_last hlen h p hp
  | backward =>
    simp only [facing, List.getLast?_reverse] at hp ⊢
    exact clipEdge_first hlen h p hp

theorem gap_onLine {mask : ClipMask} {j : Point} {o1 o2 : Option Point} (h1 : AtJunction mask j o1)
    (h2 : AtJunction mask j o2) : ∀ pc ∈ gap o1 o2, PlugOnLine mask pc := by
  intro pc hpc
  obtain ⟨p, q, rfl, rfl, hne, rfl⟩ := mem_gap hpc
  have hp := h1 p rfl
  have hq := h2 q rfl
  by_cases hj : 0 < depth mask j
  · exact absurd ((hp.1 hj).trans (hq.1 hj).symm) hne
  · have := hp.2 hj
    have := hq.2 hj
    unfold PlugOnLine plugPiece
    split <;> rename_i he <;> split at he <;> simp_all

/-- The situation of a directed edge whose path leads from `a` to `c`. -/
theorem visible_step {m : Build} {mask : ClipMask} {edges : List TopoEdge} {cs : List (List Point)}
    (hcs : ClippedBy m mask edges cs) (hlen : ∀ e ∈ edges, 2 ≤ e.points.length) {de : DirectedEdge} {path : List Point}
    (hw : walk edges de = some path) {a c : Point} (ha : path.head? = some a) (hc : path.getLast? = some c) :
    (visiblePiece cs de = none ∧ ¬ 0 < depth mask a ∧ ¬ 0 < depth mask c) ∨
    ∃ pc, visiblePiece cs de = some pc ∧ AtJunction mask a (pc.path cs).head? ∧ AtJunction mask c (pc.path cs).getLast? := by
  unfold walk at hw
  obtain ⟨e, he, hp⟩ := Option.map_eq_some_iff.mp hw
  have hp' : path = facing de.direction e.points := by rw [← hp]; cases de.direction <;> rfl
  obtain ⟨hlt, hge⟩ := List.getElem?_eq_some_iff.mp he
  have hlt' : de.edge < cs.length := by rw [← hcs.length_eq]; exact hlt
  have hclip : clipEdge m mask e.points = .ok cs[de.edge] := by
    rw [← hge]
    exact (List.forall₂_iff_get.mp hcs).2 de.edge hlt hlt'
  have hel := hlen e (List.mem_of_getElem? he)
  have hget : cs[de.edge]? = some cs[de.edge] := List.getElem?_eq_getElem hlt'
  by_cases hne : cs[de.edge] = []
  · left
    refine ⟨by simp [visiblePiece, hget, hne], ?_⟩
    have hno : ∀ x ∈ e.points, depth mask x ≤ 0 := by
      rcases (C27_empty_iff hclip).mp hne with h | h
      · omega
      · exact h
    have hmem : ∀ x ∈ path, depth mask x ≤ 0 := by
      intro x hx
      apply hno
      rw [hp'] at hx
      cases hd : de.direction <;> rw [hd] at hx <;> simpa [facing] using hx
    have h1 := hmem a (List.mem_of_mem_head? (by rw [ha]; rfl))
    have h2 := hmem c (List.mem_of_getLast? hc)
    omega
  · right
    refine ⟨⟨.kept de.edge, de.direction⟩, by simp [visiblePiece, hget, hne], ?_, ?_⟩
    · have hpath : Piece.path cs ⟨.kept de.edge, de.direction⟩ = facing de.direction cs[de.edge] := by
        simp [Piece.path, PieceEdge.points, hget]
      rw [hpath]
      rw [hp'] at ha
      have := clipEdge_facing_head hel hclip de.direction ha
      intro x hx
      refine ⟨fun h => ?_, fun h => this.2 h x hx⟩
      have := this.1 h
      rw [hx] at this
      exact Option.some.inj this
    · have hpath : Piece.path cs ⟨.kept de.edge, de.direction⟩ = facing de.direction cs[de.edge] := by
        simp [Piece.path, PieceEdge.points, hget]
      rw [hpath]
      rw [hp'] at hc
      have := clipEdge_facing_last hel hclip de.direction hc
      intro x hx
      refine ⟨fun h => ?_, fun h => this.2 h x hx⟩
      have := this.1 h
      rw [hx] at this
      exact Option.some.inj this

theorem bridge_onLine {m : Build} {mask : ClipMask} {edges : List TopoEdge} {cs : List (List Point)}
    (hcs : ClippedBy m mask edges cs) (hlen : ∀ e ∈ edges, 2 ≤ e.points.length) {des : List DirectedEdge}
    {paths : List (List Point)} (hw : des.map (walk edges) = paths.map some) {a b : Point} (hl : Leads a paths b)
    {prev : Option Point} (hprev : AtJunction mask a prev) :
    (∀ pc ∈ bridge cs prev (des.filterMap (visiblePiece cs)), PlugOnLine mask pc) ∧
    AtJunction mask b ((endOf cs (des.filterMap (visiblePiece cs))).or prev) ∧
    AtJunction mask a (startOf cs (des.filterMap (visiblePiece cs))) := by
  induction des generalizing paths a prev with
  | nil =>
    cases paths with
    | nil =>
      cases hl
      refine ⟨by simp [bridge], by simpa [endOf] using hprev, ?_⟩
      intro x hx; simp [startOf] at hx
    | cons _ _ => simp at hw
  | cons de des ih =>
    cases paths with
    | nil => simp at hw
    | cons path paths =>
      simp only [List.map_cons, List.cons.injEq] at hw
      obtain ⟨ha, c, hc, hl⟩ := hl
      rcases visible_step hcs hlen hw.1 ha hc with ⟨hv, h1, h2⟩ | ⟨pc, hv, h1, h2⟩
      · rw [List.filterMap_cons_none hv]
        have hprev' : AtJunction mask c prev := fun x hx =>
          ⟨fun h => absurd h h2, fun _ => (hprev x hx).2 h1⟩
        obtain ⟨h3, h4, h5⟩ := ih hw.2 hl hprev'
        exact ⟨h3, h4, fun x hx => ⟨fun h => absurd h h1, fun _ => (h5 x hx).2 h2⟩⟩
      · rw [List.filterMap_cons_some hv]
        obtain ⟨h3, h4, _⟩ := ih hw.2 hl h2
        have hne : ∀ p ∈ pc :: des.filterMap (visiblePiece cs), p.path cs ≠ [] := by
          rw [← List.filterMap_cons_some hv]
          exact visible_path_ne_nil
        refine ⟨?_, ?_, ?_⟩
        · intro p hp
          simp only [bridge, List.mem_append, List.mem_cons] at hp
          rcases hp with hp | hp | hp
          · exact gap_onLine hprev h1 p hp
          · subst hp
            rw [(visiblePiece_some hv).1]
            trivial
          · exact h3 p hp
        · rw [endOf_cons hne]
          obtain ⟨y, hy⟩ : ∃ y, (pc.path cs).getLast? = some y :=
            ⟨_, List.getLast?_eq_some_getLast (hne pc (by simp))⟩
          rw [hy] at h4 ⊢
          cases he : endOf cs (des.filterMap (visiblePiece cs)) with
          | none => rw [he] at h4; simpa using h4
          | some z => rw [he] at h4; simpa using h4
        · simpa [startOf] using h1

theorem clippedPieces_onLine {m : Build} {mask : ClipMask} {edges : List TopoEdge} {cs : List (List Point)}
    (hcs : ClippedBy m mask edges cs) (hlen : ∀ e ∈ edges, 2 ≤ e.points.length) {ring : TopoRing}
    {paths : List (List Point)} (hw : ReadsAs edges paths ring) (hc : ClosedRing paths) :
    ∀ pc ∈ clippedPieces cs ring, PlugOnLine mask pc := by
  obtain ⟨_, a, hl⟩ := hc
  obtain ⟨h1, h2, h3⟩ := bridge_onLine hcs hlen hw hl (prev := none) (fun x hx => by cases hx)
  rw [Option.or_none] at h2
  intro pc hpc
  unfold clippedPieces closeUp at hpc
  rw [List.mem_append] at hpc
  rcases hpc with hpc | hpc
  · exact h1 pc hpc
  · exact gap_onLine h2 h3 pc hpc

/-! ## Clipping that changes nothing -/

theorem bridge_leads {cs : List (List Point)} {ps : List Piece} {a b : Point}
    (h : Leads a (ps.map (Piece.path cs)) b) : bridge cs (some a) ps = ps ∧ (endOf cs ps).or (some a) = some b := by
  induction ps generalizing a with
  | nil => cases h; exact ⟨rfl, rfl⟩
  | cons e rest ih =>
    obtain ⟨h1, c, h2, h3⟩ := h
    obtain ⟨h4, h5⟩ := ih h3
    refine ⟨?_, ?_⟩
    · simp only [bridge, h1, h2, h4, gap, if_true, List.nil_append]
    · cases rest with
      | nil => cases h3; simp [endOf, h2]
      | cons f rest =>
        unfold endOf at h5 ⊢
        rw [List.getLast?_cons_cons]
        have hne : ((f :: rest).getLast (by simp)).path cs ≠ [] := by
          have : ∀ (ps : List Piece) (a b : Point), Leads a (ps.map (Piece.path cs)) b → ∀ pc ∈ ps, pc.path cs ≠ [] := by
            intro ps
            induction ps with
            | nil => simp
            | cons e ps ih =>
              intro a b h pc hpc
              obtain ⟨h1, c, h2, h3⟩ := h
              rw [List.mem_cons] at hpc
              rcases hpc with rfl | hpc
              · intro h0; rw [h0] at h1; cases h1
              · exact ih c b h3 pc hpc
          exact this _ _ _ h3 _ (List.getLast_mem _)
        rw [List.getLast?_eq_some_getLast (by simp), Option.bind_some, List.getLast?_eq_some_getLast hne] at h5 ⊢
        simpa using h5

theorem closeUp_leads {cs : List (List Point)} {ps : List Piece} (h : ClosedRing (ps.map (Piece.path cs))) :
    closeUp cs ps = ps := by
  obtain ⟨hne, a, hl⟩ := h
  match ps, hl with
  | [], _ => simp at hne
  | e :: rest, ⟨h1, c, h2, h3⟩ =>
    have hl : Leads a ((e :: rest).map (Piece.path cs)) a := ⟨h1, c, h2, h3⟩
    obtain ⟨h4, _⟩ := bridge_leads h3
    obtain ⟨_, h5⟩ := bridge_leads hl
    have hend : endOf cs (e :: rest) = some a := by
      cases he : endOf cs (e :: rest) with
      | some x => rw [he] at h5; simpa using h5
      | none =>
        exfalso
        cases rest with
        | nil => simp [endOf, h2] at he
        | cons f rest =>
          obtain ⟨_, h6⟩ := bridge_leads (ps := f :: rest) (a := c) h3
          have hx : endOf cs (e :: f :: rest) = endOf cs (f :: rest) := by
            unfold endOf; rw [List.getLast?_cons_cons]
          rw [hx] at he
          -- the last path is not empty
          have hlast : ∀ (ps : List Piece) (e : Piece) (a b : Point), Leads a ((e :: ps).map (Piece.path cs)) b →
              endOf cs (e :: ps) ≠ none := by
            intro ps
            induction ps with
            | nil => intro e a b ⟨_, c, h, _⟩; simp [endOf, h]
            | cons f ps ih =>
              intro e a b ⟨_, c, _, h⟩
              have := ih f c b h
              unfold endOf at this ⊢
              rwa [List.getLast?_cons_cons]
          exact hlast _ _ _ _ h3 he
    have hstart : startOf cs (e :: rest) = some a := by simp [startOf, h1]
    unfold closeUp
    rw [hend, hstart]
    simp [bridge, h1, h2, h4, gap]

theorem newId_all {cs : List (List Point)} (h : ∀ c ∈ cs, c ≠ []) {i : Nat} (hi : i ≤ cs.length) : newId cs i = i := by
  unfold newId
  rw [List.filter_eq_self.mpr]
  · simp [hi]
  · intro c hc
    simpa using h c (List.mem_of_mem_take hc)

/-- The rings of a topology without pointers. -/
def stripRegion {δ : Type} (r : TopoRegion δ) : BuildRegion δ :=
  ⟨r.data, r.outerRings.map (·.directedEdges), r.innerRings.map (·.directedEdges)⟩

theorem regions_of_backPointers {δ : Type} {t : Topology δ} (h : BackPointersExact t) :
    setRegionPtrs 0 ((t.regions.map stripRegion).map toTopoRegion) = t.regions := by
  apply List.ext_getElem?
  intro n
  rw [setRegionPtrs_getElem?, List.map_map, List.getElem?_map]
  cases hr : t.regions[n]? with
  | none => rfl
  | some r =>
    have hp := h.2.1 n r hr
    simp only [Option.map_some, Nat.zero_add, Function.comp_apply, Option.some.injEq]
    have hrings : ∀ rings : List TopoRing, (∀ ring ∈ rings, ring.region = some n) →
        ((rings.map (·.directedEdges)).map (fun ds => (⟨ds, none⟩ : TopoRing))).map
          (fun t => { t with region := some n }) = rings := by
      intro rings hrings
      rw [List.map_map, List.map_map]
      conv_rhs => rw [← List.map_id rings]
      apply List.map_congr_left
      intro ring hring
      have := hrings ring hring
      cases ring
      simp_all
    have h1 := hrings r.outerRings (fun ring hr => hp ring (by simp [hr]))
    have h2 := hrings r.innerRings (fun ring hr => hp ring (by simp [hr]))
    simp only [setRegionPtr, toTopoRegion, stripRegion]
    rw [h1, h2]

theorem finishTopology_self {δ : Type} {t : Topology δ} (h : BackPointersExact t) :
    finishTopology (t.edges.map (·.points)) (t.regions.map stripRegion) = .ok t := by
  have hin : ∀ r ∈ t.regions.map stripRegion, InBounds (t.edges.map (·.points)).length r := by
    intro r hr
    obtain ⟨r', hr', rfl⟩ := List.mem_map.mp hr
    intro ring hring de hde
    simp only [stripRegion, ← List.map_append, List.mem_map] at hring
    obtain ⟨ring', hring', rfl⟩ := hring
    rw [List.length_map]
    exact h.2.2 de (List.mem_flatMap.mpr ⟨ring', List.mem_flatMap.mpr ⟨r', hr', hring'⟩, hde⟩)
  have hu : ∀ i, usersOf (regionsUses 0 (t.regions.map stripRegion)) i = ringsUsing t i := by
    intro i
    rw [← ringsUsing_finish _ t.edges i, regions_of_backPointers h]
  rw [finishTopology_eq hin, if_pos, regions_of_backPointers h]
  · congr 1
    cases t with
    | mk regions edges =>
    simp only [Topology.mk.injEq, true_and]
    apply List.ext_getElem?
    intro i
    rw [getElem?_edgesAfter, List.getElem?_map]
    cases he : edges[i]? with
    | none => rfl
    | some e =>
      obtain ⟨_, h0, h1⟩ := h.1 i e he
      simp only [Option.map_some, Option.some.injEq, hu]
      rw [← h0, ← h1]
  · intro i
    by_cases hi : i < t.edges.length
    · rw [hu]
      exact (h.1 i t.edges[i] (List.getElem?_eq_getElem hi)).1
    · have : usersOf (regionsUses 0 (t.regions.map stripRegion)) i = [] := by
        unfold usersOf
        rw [List.map_eq_nil_iff, List.filter_eq_nil_iff]
        intro u hu
        have := regionsUses_bound hin 0 u hu
        rw [List.length_map] at this
        simp
        omega
      rw [this]
      simp

theorem clippedPieces_inside {δ : Type} {mask : ClipMask} {t : Topology δ} (h : AllInside mask t) {ring : TopoRing}
    (hr : ring ∈ allRings t) :
    clippedPieces (t.edges.map (·.points)) ring = ring.directedEdges.map (fun de => ⟨.kept de.edge, de.direction⟩) ∧
    piecesArea (t.edges.map (·.points)) (clippedPieces (t.edges.map (·.points)) ring) ≠ 0 := by
  obtain ⟨paths, h1, h2, h3⟩ := h.rings ring hr
  have hvis : ring.directedEdges.filterMap (visiblePiece (t.edges.map (·.points))) =
      ring.directedEdges.map (fun de => ⟨.kept de.edge, de.direction⟩) := by
    conv_rhs => rw [← List.filterMap_eq_map]
    apply List.filterMap_congr
    intro de hde
    have hlt := h.pointers.2.2 de (List.mem_flatMap.mpr ⟨ring, hr, hde⟩)
    have hel := (h.edges t.edges[de.edge] (List.getElem_mem hlt)).1
    unfold visiblePiece
    rw [if_neg]
    · rfl
    · simp only [List.getElem?_map, List.getElem?_eq_getElem hlt, Option.map_some, Option.getD_some]
      intro h0; rw [h0] at hel; simp at hel
  have hpaths : (ring.directedEdges.map (fun de => (⟨.kept de.edge, de.direction⟩ : Piece))).map
      (Piece.path (t.edges.map (·.points))) = paths := by
    apply List.map_injective_iff.mpr (Option.some_injective _)
    rw [← h1, List.map_map, List.map_map]
    apply List.map_congr_left
    intro de hde
    have hlt := h.pointers.2.2 de (List.mem_flatMap.mpr ⟨ring, hr, hde⟩)
    simp only [Function.comp_apply, Piece.path, PieceEdge.points, walk, List.getElem?_map,
      List.getElem?_eq_getElem hlt, Option.map_some, Option.getD_some]
    cases de.direction <;> rfl
  have hcl : clippedPieces (t.edges.map (·.points)) ring =
      ring.directedEdges.map (fun de => ⟨.kept de.edge, de.direction⟩) := by
    unfold clippedPieces
    rw [hvis]
    apply closeUp_leads
    rw [hpaths]
    exact h2
  refine ⟨hcl, ?_⟩
  rw [hcl]
  unfold piecesArea
  rw [hpaths]
  exact h3

theorem clippedBuild_inside {δ : Type} {mask : ClipMask} {t : Topology δ} (h : AllInside mask t) :
    clippedBuild (t.edges.map (·.points)) t = t.regions.map stripRegion ∧
    clippedPoints (t.edges.map (·.points)) t = t.edges.map (·.points) := by
  have hne : ∀ c ∈ t.edges.map (·.points), c ≠ [] := by
    intro c hc h0
    obtain ⟨e, he, rfl⟩ := List.mem_map.mp hc
    have := (h.edges e he).1
    rw [h0] at this; simp at this
  have hkept : ∀ rings : List TopoRing, (∀ ring ∈ rings, ring ∈ allRings t) →
      keptClipped (t.edges.map (·.points)) rings =
        rings.map fun ring => ring.directedEdges.map (fun de => ⟨.kept de.edge, de.direction⟩) := by
    intro rings hr
    unfold keptClipped
    rw [List.filter_eq_self.mpr]
    · apply List.map_congr_left
      intro ring hring
      exact (clippedPieces_inside h (hr ring hring)).1
    · intro ps hps
      obtain ⟨ring, hring, rfl⟩ := List.mem_map.mp hps
      simpa using (clippedPieces_inside h (hr ring hring)).2
  have hmem : ∀ r ∈ t.regions, ∀ ring ∈ r.outerRings ++ r.innerRings, ring ∈ allRings t :=
    fun r hr ring hring => List.mem_flatMap.mpr ⟨r, hr, hring⟩
  have hkeys : newKeys (t.edges.map (·.points)) t = [] := by
    unfold newKeys
    have : plugKeys (triedPieces (t.edges.map (·.points)) t.regions) = [] := by
      unfold plugKeys
      rw [List.filterMap_eq_nil_iff]
      intro pc hpc
      obtain ⟨r, hr, hpc⟩ := List.mem_flatMap.mp hpc
      have : ∃ ring ∈ r.outerRings ++ r.innerRings, pc ∈ clippedPieces (t.edges.map (·.points)) ring := by
        rw [List.mem_append] at hpc
        rcases hpc with hpc | hpc
        · obtain ⟨ps, hps, hpc⟩ := List.mem_flatten.mp hpc
          obtain ⟨ring, hring, rfl⟩ := List.mem_map.mp hps
          exact ⟨ring, by simp [hring], hpc⟩
        · split at hpc
          · simp at hpc
          · obtain ⟨ps, hps, hpc⟩ := List.mem_flatten.mp hpc
            obtain ⟨ring, hring, rfl⟩ := List.mem_map.mp hps
            exact ⟨ring, by simp [hring], hpc⟩
      obtain ⟨ring, hring, hpc⟩ := this
      rw [(clippedPieces_inside h (hmem r hr ring hring)).1] at hpc
      obtain ⟨de, _, rfl⟩ := List.mem_map.mp hpc
      rfl
    rw [this]
    rfl
  constructor
  · have hfilt : t.regions.filter (fun r => keptClipped (t.edges.map (·.points)) r.outerRings ≠ []) = t.regions := by
      apply List.filter_eq_self.mpr
      intro r hr
      rw [hkept _ (fun ring hring => hmem r hr ring (by simp [hring]))]
      simpa using h.regions r hr
    unfold clippedBuild clippedRegions
    rw [hfilt]
    · rw [List.map_map]
      apply List.map_congr_left
      intro r hr
      simp only [Function.comp_apply, toBuild, stripRegion]
      have hde : ∀ rings : List TopoRing, (∀ ring ∈ rings, ring ∈ allRings t) →
          (keptClipped (t.edges.map (·.points)) rings).map (fun ps => ps.map
            (toDE (t.edges.map (·.points)) ((t.edges.map (·.points)).filter (· ≠ [])).length
              (newKeys (t.edges.map (·.points)) t))) = rings.map (·.directedEdges) := by
        intro rings hrings
        rw [hkept rings hrings, List.map_map]
        apply List.map_congr_left
        intro ring hring
        simp only [Function.comp_apply, List.map_map]
        conv_rhs => rw [← List.map_id ring.directedEdges]
        apply List.map_congr_left
        intro de hde
        have hlt := h.pointers.2.2 de (List.mem_flatMap.mpr ⟨ring, hrings ring hring, hde⟩)
        simp only [Function.comp_apply, toDE, place, id_eq]
        rw [newId_all hne (by rw [List.length_map]; omega)]
      rw [hde _ (fun ring hring => hmem r hr ring (by simp [hring])),
        hde _ (fun ring hring => hmem r hr ring (by simp [hring]))]
  · unfold clippedPoints
    rw [hkeys, List.map_nil, List.append_nil]
    apply List.filter_eq_self.mpr
    intro c hc
    simpa using hne c hc

theorem clippedBy_inside {δ : Type} {m : Build} {mask : ClipMask} {t : Topology δ} (h : AllInside mask t)
    {cs : List (List Point)} (hcs : ClippedBy m mask t.edges cs) : cs = t.edges.map (·.points) := by
  have he := h.edges
  unfold ClippedBy at hcs
  generalize t.edges = edges at hcs he
  induction hcs with
  | nil => rfl
  | cons h1 _ ih =>
    rename_i e c l1 l2 _
    have := he e (by simp)
    rw [C27_inside m this.1 this.2] at h1
    obtain rfl := Except.ok.inj h1
    rw [List.map_cons, ← ih (fun e he' => he e (by simp [he']))]

end TopoGeo
