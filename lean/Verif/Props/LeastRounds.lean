import Verif.Spec.LeastRounds
import Verif.Props.Rounds
import Verif.Props.SimplifyTime
import Verif.Props.ReadTime
import Verif.Proofs.Order
/-!
# Operations take no less time than it takes to look at the data

C131: the bounds of C87 and C110 cannot be improved by more than a constant factor, or a
logarithm: if an operation succeeds, it has gone through all of its input.
-/

namespace TopoGeo

open Spec Timed

theorem bind_done {α β : Type} {x : Timed α} {f : α → Timed β} {b : β} (h : (x >>= f).result = .ok b) :
    ∃ a, x.result = .ok a ∧ (f a).result = .ok b ∧ (x >>= f).rounds = x.rounds + (f a).rounds := by
  cases x with
  | panic e n => cases h
  | done a n =>
    exact ⟨a, rfl, (result_after n (f a)).symm.trans h, rounds_after n (f a)⟩

theorem tick_done {β : Type} {f : Unit → Timed β} {b : β} (h : (tick >>= f).result = .ok b) :
    (f ()).result = .ok b ∧ (tick >>= f).rounds = 1 + (f ()).rounds := by
  obtain ⟨_, _, h2, h3⟩ := bind_done h
  exact ⟨h2, h3⟩

theorem ticks_done {β : Type} {n : Nat} {f : Unit → Timed β} {b : β} (h : (ticks n >>= f).result = .ok b) :
    (f ()).result = .ok b ∧ (ticks n >>= f).rounds = n + (f ()).rounds := by
  obtain ⟨_, _, h2, h3⟩ := bind_done h
  exact ⟨h2, h3⟩

/-! ## Building -/

theorem edgesAreaLoopT_least {m : Build} {a b : Int} {es : List Edge} (h : (edgesAreaLoopT m a es).result = .ok b) :
    pathsVolume es ≤ (edgesAreaLoopT m a es).rounds := by
  induction es generalizing a with
  | nil => exact Nat.zero_le _
  | cons e rest ih =>
    rw [pathsVolume_cons]
    rw [edgesAreaLoopT] at h ⊢
    obtain ⟨h1, e1⟩ := tick_done h
    obtain ⟨x, _, h2, e2⟩ := bind_done h1
    obtain ⟨y, _, h3, e3⟩ := bind_done h2
    have := ih h3
    have : (signedArea2T m e).rounds = e.length := by simp [signedArea2T, rounds_ticks_bind_eq]
    omega

theorem ringAreaT_least {m : Build} {r : Ring} {x : Nat × WindingOrder} (h : (r.area2AndWindingOrderT m).result = .ok x) :
    ringVolume r ≤ (r.area2AndWindingOrderT m).rounds + 1 := by
  cases r with
  | points ps =>
    have := (ticks_done h).2
    have e : ((Ring.points ps).area2AndWindingOrderT m).rounds = ps.length + _ := this
    simp only [ringVolume]
    omega
  | edges es =>
    obtain ⟨a, h1, _, e⟩ := bind_done (x := edgesAreaLoopT m 0 es) h
    have := edgesAreaLoopT_least h1
    have e : ((Ring.edges es).area2AndWindingOrderT m).rounds = (edgesAreaLoopT m 0 es).rounds + _ := e
    simp only [ringVolume]
    omega

theorem buildRingT_least {m : Build} {es : EdgeMap} {r : Ring} {x : Option BuildRing × EdgeMap}
    (h : (buildRingT m es r).result = .ok x) : ringVolume r ≤ (buildRingT m es r).rounds + 1 := by
  obtain ⟨a, h1, _, e⟩ := bind_done (x := r.area2AndWindingOrderT m) h
  have := ringAreaT_least h1
  have e : (buildRingT m es r).rounds = (r.area2AndWindingOrderT m).rounds + _ := e
  omega

theorem buildRingsT_least {m : Build} {es : EdgeMap} {rs : List Ring} {x : List BuildRing × EdgeMap}
    (h : (buildRingsT m es rs).result = .ok x) : ringsVolume rs ≤ (buildRingsT m es rs).rounds := by
  induction rs generalizing es x with
  | nil => exact Nat.zero_le _
  | cons r rest ih =>
    rw [ringsVolume_cons]
    rw [buildRingsT] at h ⊢
    obtain ⟨h1, e1⟩ := tick_done h
    obtain ⟨o, ho, h2, e2⟩ := bind_done h1
    obtain ⟨y, hy, h3, e3⟩ := bind_done h2
    have := ih hy
    have := buildRingT_least ho
    omega

theorem buildRings_count {m : Build} {es : EdgeMap} {rs : List Ring} {x : List BuildRing × EdgeMap}
    (h : buildRings m es rs = .ok x) : x.1.length = (keptRings rs).length := by
  rcases buildRings_both m rs es [] with ⟨a, y, h1, hy, hl⟩ | ⟨e, _, h1, _⟩
  · obtain rfl := Except.ok.inj (h.symm.trans h1)
    have h2 := (buildRings_ok (ks := []) (out := y.1) (es' := y.2) hy).2
    have hl : x.1.length = y.1.length := hl
    rw [hl, h2]
    simp
  · rw [h] at h1; cases h1

theorem addRegionT_least {δ : Type} {m : Build} {b b' : TopologyBuilder δ} {r : Region δ} (h : (b.addRegionT m r).result = .ok b') :
    examinedVolume r ≤ (b.addRegionT m r).rounds := by
  rw [TopologyBuilder.addRegionT] at h ⊢
  obtain ⟨h1, e1⟩ := tick_done h
  obtain ⟨o, ho, h2, e2⟩ := bind_done h1
  have v1 : (r.outerRings.map ringVolume).sum ≤ _ := buildRingsT_least ho
  rw [buildRingsT_result] at ho
  have hlen := buildRings_count ho
  unfold examinedVolume
  split at h2
  · rename_i hpos
    obtain ⟨i, hi, h3, e3⟩ := bind_done h2
    have v2 : (r.innerRings.map ringVolume).sum ≤ _ := buildRingsT_least hi
    rw [if_pos hpos] at e2
    split <;> omega
  · rename_i hpos
    have : keptRings r.outerRings = [] := List.length_eq_zero_iff.mp (by omega)
    rw [if_pos this]
    omega

theorem addRegionsT_least {δ : Type} {m : Build} {b b' : TopologyBuilder δ} {rs : List (Region δ)}
    (h : (b.addRegionsT m rs).result = .ok b') : (rs.map examinedVolume).sum ≤ (b.addRegionsT m rs).rounds := by
  induction rs generalizing b with
  | nil => exact Nat.zero_le _
  | cons r rest ih =>
    rw [TopologyBuilder.addRegionsT] at h ⊢
    obtain ⟨o, ho, h2, e2⟩ := bind_done h
    have := addRegionT_least ho
    have := ih h2
    rw [List.map_cons, List.sum_cons]
    omega

/-- C131: whoever builds a topology looks at each point of each ring. -/
theorem C131_build {δ : Type} (m : Build) (rs : List (Region δ)) (t : Topology δ) (h : buildTopology m rs = .ok t) :
    (rs.map examinedVolume).sum ≤ (buildTopologyT m rs).rounds := by
  rw [← buildTopologyT_result] at h
  rw [buildTopologyT] at h ⊢
  obtain ⟨b, hb, _, e⟩ := bind_done h
  have := addRegionsT_least hb
  omega

/-! ## Clipping -/

theorem clipLoopT_least {m : Build} {mask : ClipMask} {prev : Point} {loc : ClipLocation} {ret ps out : List Point}
    (h : (clipLoopT m mask prev loc ret ps).result = .ok out) : ps.length ≤ (clipLoopT m mask prev loc ret ps).rounds := by
  induction ps generalizing prev loc ret with
  | nil => exact Nat.zero_le _
  | cons p rest ih =>
    rw [clipLoopT] at h ⊢
    obtain ⟨h1, e1⟩ := tick_done h
    obtain ⟨o, ho, h2, e2⟩ := bind_done h1
    have := ih h2
    rw [List.length_cons]
    omega

theorem clipEdgeT_least {m : Build} {mask : ClipMask} {ps out : List Point} (h : (clipEdgeT m mask ps).result = .ok out) :
    ps.length ≤ (clipEdgeT m mask ps).rounds + 1 := by
  match ps with
  | [] => exact Nat.zero_le _
  | [_] => exact Nat.succ_le_succ (Nat.zero_le _)
  | p :: q :: rest => exact Nat.succ_le_succ (clipLoopT_least h)

theorem clipOldEdgesT_least {m : Build} {mask : ClipMask} {c : List (List Point)} {f : List (Option Nat)} {es : List TopoEdge}
    {x : List (List Point) × List (Option Nat)} (h : (clipOldEdgesT m mask c f es).result = .ok x) :
    (es.map (·.points.length)).sum ≤ (clipOldEdgesT m mask c f es).rounds := by
  induction es generalizing c f with
  | nil => exact Nat.zero_le _
  | cons e rest ih =>
    rw [clipOldEdgesT] at h ⊢
    obtain ⟨h1, e1⟩ := tick_done h
    obtain ⟨o, ho, h2, e2⟩ := bind_done h1
    have := clipEdgeT_least ho
    rw [List.map_cons, List.sum_cons]
    split at h2
    · rename_i hc
      rw [if_pos hc] at e2
      have := ih h2
      omega
    · rename_i hc
      rw [if_neg hc] at e2
      have := ih h2
      omega

theorem clipRingLoopT_least {m : Build} {b : ClipBuilder} {s s' : ClipRingState} {des : List DirectedEdge}
    (h : (clipRingLoopT m b s des).result = .ok s') : des.length ≤ (clipRingLoopT m b s des).rounds := by
  induction des generalizing s with
  | nil => exact Nat.zero_le _
  | cons de rest ih =>
    rw [clipRingLoopT] at h ⊢
    obtain ⟨o, ho, h2, e2⟩ := bind_done h
    have h1 : (clipRingStepT m b s de).rounds = 1 + _ := (tick_done ho).2
    have := ih h2
    rw [List.length_cons]
    omega

theorem clipRingsT_least {m : Build} {b : ClipBuilder} {rs : List TopoRing} {x : List BuildRing × ClipBuilder}
    (h : (clipRingsT m b rs).result = .ok x) : (rs.map fun ring => 1 + ring.directedEdges.length).sum ≤ (clipRingsT m b rs).rounds := by
  induction rs generalizing b x with
  | nil => exact Nat.zero_le _
  | cons r rest ih =>
    rw [clipRingsT] at h ⊢
    obtain ⟨h1, e1⟩ := tick_done h
    obtain ⟨o, ho, h2, e2⟩ := bind_done h1
    obtain ⟨y, hy, h3, e3⟩ := bind_done h2
    obtain ⟨s, hs, _, e4⟩ := bind_done (x := clipRingLoopT m b ⟨[], 0, none, none, b.newEdges⟩ r.directedEdges) ho
    have e4 : (clipRingT m b r).rounds = (clipRingLoopT m b ⟨[], 0, none, none, b.newEdges⟩ r.directedEdges).rounds + _ := e4
    have := clipRingLoopT_least hs
    have := ih hy
    rw [List.map_cons, List.sum_cons]
    omega

theorem clipRegionsT_least {δ : Type} {m : Build} {b : ClipBuilder} {rs : List (TopoRegion δ)} {x : List (BuildRegion δ) × ClipBuilder}
    (h : (clipRegionsT m b rs).result = .ok x) :
    (rs.map fun r => 1 + (r.outerRings.map fun ring => 1 + ring.directedEdges.length).sum).sum ≤ (clipRegionsT m b rs).rounds := by
  induction rs generalizing b x with
  | nil => exact Nat.zero_le _
  | cons r rest ih =>
    rw [clipRegionsT] at h ⊢
    obtain ⟨h1, e1⟩ := tick_done h
    obtain ⟨o, ho, h2, e2⟩ := bind_done h1
    obtain ⟨y, hy, h3, e3⟩ := bind_done h2
    obtain ⟨s, hs, _, e4⟩ := bind_done (x := clipRingsT m b r.outerRings) ho
    have e4 : (clipRegionT m b r).rounds = (clipRingsT m b r.outerRings).rounds + _ := e4
    have := clipRingsT_least hs
    have := ih hy
    rw [List.map_cons, List.sum_cons]
    omega

/-- C131: whoever clips a topology looks at each point of each edge, and at each edge of each
outer ring. -/
theorem C131_clip {δ : Type} (m : Build) (t t' : Topology δ) (mask : ClipMask) (h : clipTopology m t mask = .ok t') :
    (t.edges.map (·.points.length)).sum + outlineVolume t ≤ (clipTopologyT m t mask).rounds := by
  rw [← clipTopologyT_result] at h
  rw [clipTopologyT] at h ⊢
  obtain ⟨cf, h1, h2, e1⟩ := bind_done h
  obtain ⟨rb, h3, _, e2⟩ := bind_done h2
  have := clipOldEdgesT_least h1
  have v : outlineVolume t ≤ _ := clipRegionsT_least h3
  omega

/-! ## Normalizing -/

theorem withDirectedEdgesT_least {δ : Type} {t : Topology δ} {des : List DirectedEdge} {x : List NormEdge}
    (h : (withDirectedEdgesT t des).result = .ok x) : pathsVolume (des.map (pathOf t)) ≤ (withDirectedEdgesT t des).rounds := by
  induction des generalizing x with
  | nil => exact Nat.zero_le _
  | cons de rest ih =>
    rw [withDirectedEdgesT] at h ⊢
    obtain ⟨h1, e1⟩ := tick_done h
    obtain ⟨o, ho, h2, e2⟩ := bind_done h1
    obtain ⟨y, hy, h3, e3⟩ := bind_done h2
    have := ih hy
    have : (pathOf t de).length ≤ (withDirectedEdgeT t de).rounds := by
      unfold withDirectedEdgeT at ho ⊢
      cases he : t.edges[de.edge]? with
      | none => rw [he] at ho; cases ho
      | some edge =>
        rw [he] at ho
        dsimp only at ho ⊢
        have e : (pathOf t de).length = edge.points.length := by
          unfold pathOf walk
          rw [he]
          cases de.direction <;> simp
        have := (ticks_done ho).2
        omega
    rw [List.map_cons, pathsVolume_cons]
    omega

theorem normalizeRingsT_least {δ : Type} {m : Build} {t : Topology δ} {order : WindingOrder} {rs : List TopoRing} {x : List NormRing}
    (h : (normalizeRingsT m t order rs).result = .ok x) : topoRingsVolume t rs ≤ (normalizeRingsT m t order rs).rounds := by
  induction rs generalizing x with
  | nil => exact Nat.zero_le _
  | cons r rest ih =>
    rw [normalizeRingsT] at h ⊢
    obtain ⟨h1, e1⟩ := tick_done h
    obtain ⟨o, ho, h2, e2⟩ := bind_done h1
    obtain ⟨y, hy, h3, e3⟩ := bind_done h2
    have := ih hy
    obtain ⟨s, hs, _, e4⟩ := bind_done (x := withDirectedEdgesT t r.directedEdges) ho
    have e4 : (normalizeRingT m t order r).rounds = (withDirectedEdgesT t r.directedEdges).rounds + _ := e4
    have v : pathsVolume (pathsOf t r) ≤ _ := withDirectedEdgesT_least hs
    rw [topoRingsVolume_cons]
    unfold topoRingVolume
    omega

theorem normalizeRegionRingsT_least {δ : Type} {m : Build} {t : Topology δ} {order : WindingOrder} {rs : List TopoRing} {x : List Ring}
    (h : (normalizeRegionRingsT m t rs order).result = .ok x) : topoRingsVolume t rs ≤ (normalizeRegionRingsT m t rs order).rounds := by
  obtain ⟨s, hs, _, e⟩ := bind_done (x := normalizeRingsT m t order rs) h
  have e : (normalizeRegionRingsT m t rs order).rounds = (normalizeRingsT m t order rs).rounds + _ := e
  have := normalizeRingsT_least hs
  omega

theorem normalizeLoopT_least {δ : Type} {m : Build} {t : Topology δ} {b b' : TopologyBuilder δ} {rs : List (TopoRegion δ)}
    (h : (normalizeLoopT m t b rs).result = .ok b') :
    (rs.map (topoRegionVolume t)).sum ≤ (normalizeLoopT m t b rs).rounds := by
  induction rs generalizing b with
  | nil => exact Nat.zero_le _
  | cons r rest ih =>
    rw [normalizeLoopT] at h ⊢
    obtain ⟨o, ho, h2, e2⟩ := bind_done h
    obtain ⟨y, hy, h3, e3⟩ := bind_done h2
    have := ih h3
    rw [normalizeRegionT] at ho
    obtain ⟨h4, e4⟩ := tick_done ho
    obtain ⟨o1, h5, h6, e5⟩ := bind_done h4
    obtain ⟨o2, h7, h8, e6⟩ := bind_done h6
    have := normalizeRegionRingsT_least h5
    have := normalizeRegionRingsT_least h7
    have e4 : (normalizeRegionT m t r).rounds = 1 + _ := e4
    have v : topoRegionVolume t r = 1 + topoRingsVolume t r.outerRings + topoRingsVolume t r.innerRings := by
      simp only [topoRegionVolume, topoRingsVolume, List.map_append, List.sum_append]; omega
    rw [List.map_cons, List.sum_cons]
    omega

/-- C131: whoever normalizes a topology looks at each point of each edge at each of its uses. -/
theorem C131_normalize {δ : Type} (m : Build) (t t' : Topology δ) (h : normalize m t = .ok t') :
    walkedVolume t ≤ (normalizeT m t).rounds := by
  rw [← normalizeT_result] at h
  rw [normalizeT] at h ⊢
  obtain ⟨b, hb, _, e⟩ := bind_done h
  have v : walkedVolume t ≤ _ := normalizeLoopT_least hb
  omega

/-! ## Simplifying -/

/-- The number of rounds a point takes however it is treated. -/
theorem simplifyEdgeT_least {m : Build} {ps out : List Point} {s : Nat} (h : (simplifyEdgeT m ps s).result = .ok out) :
    5 * ps.length ≤ (simplifyEdgeT m ps s).rounds + 3 := by
  rw [simplifyEdgeT] at h ⊢
  obtain ⟨h1, e1⟩ := ticks_done h
  obtain ⟨hp, h2, h3, e2⟩ := bind_done h1
  have hl := from_length ((fromT_result m ps).symm.trans h2)
  have hf : 3 * ps.length ≤ (PointHeap.fromT m ps).rounds + 3 := by
    unfold PointHeap.fromT at h2 ⊢
    split at h2
    · cases h2
    split at h2
    · cases h2
    rename_i g1 g2
    rw [if_neg g1, if_neg g2]
    cases ps with
    | nil => cases h2
    | cons p0 rest =>
      dsimp only at h2 ⊢
      obtain ⟨h4, e4⟩ := ticks_done h2
      obtain ⟨h5, e5⟩ := ticks_done h4
      obtain ⟨tail, h6, h7, e6⟩ := bind_done h5
      obtain ⟨h8, e7⟩ := ticks_done h7
      rw [e4, e5, e6, e7]
      simp only [List.length_cons]
      omega
  have hv : ps.length ≤ (hp.visvalingamWhyattT m s).rounds := by
    rw [PointHeap.visvalingamWhyattT] at h3 ⊢
    obtain ⟨hp', h4, h5, e3⟩ := bind_done h3
    obtain ⟨h6, e4⟩ := ticks_done h5
    rw [vwLoopT_result] at h4
    have := vwLoop_length h4
    omega
  omega

theorem simplifyEdgesT_least {m : Build} {s : Nat} {es out : List TopoEdge} (h : (simplifyEdgesT m s es).result = .ok out) :
    5 * (es.map (·.points.length)).sum ≤ (simplifyEdgesT m s es).rounds + 2 * es.length := by
  induction es generalizing out with
  | nil => exact Nat.zero_le _
  | cons e rest ih =>
    rw [simplifyEdgesT] at h ⊢
    obtain ⟨h1, e1⟩ := tick_done h
    obtain ⟨o, ho, h2, e2⟩ := bind_done h1
    obtain ⟨y, hy, h3, e3⟩ := bind_done h2
    have := ih hy
    have := simplifyEdgeT_least ho
    rw [List.map_cons, List.sum_cons, List.length_cons]
    omega

/-- C131: whoever simplifies a topology looks at each point five times, whatever the threshold. -/
theorem C131_simplify {δ : Type} (m : Build) (t t' : Topology δ) (s : Nat) (h : simplify m t s = .ok t') :
    5 * (t.edges.map (·.points.length)).sum ≤ (simplifyT m t s).rounds + 2 * t.edges.length := by
  rw [← simplifyT_result] at h
  rw [simplifyT] at h ⊢
  obtain ⟨b, hb, _, e⟩ := bind_done h
  have := simplifyEdgesT_least hb
  omega

/-! ## Reading -/

/-- C131: each byte of a polygon record is written when the buffer is made and again when it is
filled. -/
theorem C131_shp_next {σ : Type} [Source σ] (r r' : ShpReader σ) (record : ShpPolygonRecord)
    (h : r.next = .ok (some (.ok record), r')) : 2 * (r'.nBytesAlreadyRead - r.nBytesAlreadyRead) + 2 ≤ r.nextT.rounds := by
  rw [← shpNextT_result] at h
  unfold ShpReader.nextT at h ⊢
  split at h
  · cases h
  rename_i hn
  rw [if_neg hn]
  obtain ⟨⟨o, file'⟩, h1, h2, e1⟩ := bind_done h
  rw [e1]
  cases o with
  | error e => cases h2
  | ok rn =>
    obtain ⟨rec, nBytes⟩ := rn
    have hr' : r'.nBytesAlreadyRead = r.nBytesAlreadyRead + nBytes := by
      dsimp only at h2
      split at h2 <;> cases h2
      rfl
    have hb : 2 * nBytes + 2 ≤ (readPolygonRecordT r.file).rounds := by
      rw [readPolygonRecordT] at h1 ⊢
      obtain ⟨⟨o1, file1⟩, h3, h4, e3⟩ := bind_done h1
      cases o1 with
      | error e => cases h4
      | ok hbuf =>
        dsimp only at h4 e3
        obtain ⟨number, _, h5, e5⟩ := bind_done h4
        obtain ⟨len, _, h6, e6⟩ := bind_done h5
        obtain ⟨⟨o2, file2⟩, h7, h8, e7⟩ := bind_done h6
        have a1 : (readExactT r.file 8).rounds = 17 := rfl
        have a2 : (readExactT file1 (len * 2)).rounds = 2 * (len * 2) + 1 := rfl
        have b1 := Source.length_of_ok _ _ _ _ (Except.ok.inj h3)
        cases o2 with
        | error e => cases h8
        | ok buf =>
          dsimp only at h8 e7
          obtain ⟨o3, _, h9, e8⟩ := bind_done h8
          have b2 := Source.length_of_ok _ _ _ _ (Except.ok.inj h7)
          cases o3 with
          | error e => cases h9
          | ok record' =>
            have hn : nBytes = hbuf.length + buf.length := by cases h9; rfl
            omega
    omega

/-- C131: reading a record of attributes takes the same time whatever is in it. -/
theorem C131_dbf_next {σ : Type} [Source σ] (r : DbfReader σ) :
    r.nextT.rounds = if r.nRecordsAlreadyIterated = r.dbfMeta.nRecords then 0 else 2 * r.dbfMeta.nBytesPerRecord + 1 := by
  unfold DbfReader.nextT
  split
  · rfl
  · rw [rounds_ticks_bind_eq]; rfl

/-! The hypotheses can be met: the comb takes 379 rounds, of at least 25, to build, 668, of at
least 63, to normalize, 88, of at least 57, to clip, and 136, which is the least, to
simplify; a region that is flat takes its outer ring's. -/

example : (exCombRegions.map examinedVolume).sum = 25 ∧ (buildTopologyT .debug exCombRegions).rounds = 379 := by decide +kernel

example : (exComb.edges.map (·.points.length)).sum = 34 ∧ outlineVolume exComb = 23 ∧
    (clipTopologyT .debug exComb (.minX 2)).rounds = 88 := by decide +kernel

example : examinedVolume (⟨(), [.points [⟨0, 0⟩, ⟨1, 0⟩, ⟨0, 0⟩]], [.points [⟨0, 0⟩, ⟨0, 1⟩, ⟨1, 0⟩, ⟨0, 0⟩]]⟩ : Region Unit) = 5 := by
  decide +kernel

example : (simplifyT .debug exComb 0).result.toOption.isSome ∧ (simplifyT .debug exComb 0).rounds = 136 := by decide +kernel

end TopoGeo
