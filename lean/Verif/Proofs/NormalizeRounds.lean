import Verif.Proofs.BuildRounds
import Verif.Proofs.Sizes
/-!
# Rounds of normalizing a topology
-/

namespace TopoGeo

open Timed Spec

/-- An edge and its points. -/
abbrev gVol (n : Nat) : Nat := n + 1

theorem gVol_sub : Subadditive gVol := ⟨fun a b h => by unfold gVol; omega, fun a b => by unfold gVol; omega⟩

theorem gOne_sub : Subadditive (fun _ => 1) := ⟨fun _ _ _ => Nat.le_refl _, fun _ _ => by omega⟩

theorem edgeSize_gVol (es : List NormEdge) : edgeSize gVol es = pathsVolume (es.map (·.points)) := by
  simp [edgeSize, pathsVolume, Function.comp_def]

theorem edgeSize_gOne (es : List NormEdge) : edgeSize (fun _ => 1) es = es.length := by
  induction es with
  | nil => rfl
  | cons e es ih => rw [edgeSize_cons, ih, List.length_cons]; omega

theorem length_le_volume (es : List NormEdge) : es.length ≤ edgeSize gVol es := by
  rw [edgeSize_gVol]
  simpa using pathsVolume_length (es.map (·.points))

theorem normRounds_eq (es : List NormEdge) : normRounds es = edgeSize gVol es := by rw [edgeSize_gVol]; rfl

theorem withDirectedEdgeT_rounds {δ : Type} (t : Topology δ) (de : DirectedEdge) :
    (withDirectedEdgeT t de).rounds ≤ 2 * (pathOf t de).length := by
  unfold withDirectedEdgeT
  cases h : t.edges[de.edge]? with
  | none => simp
  | some edge =>
    have e : (pathOf t de).length = edge.points.length := by
      unfold pathOf walk
      rw [h]
      cases de.direction <;> simp
    rw [e]
    dsimp only
    refine Nat.le_trans (rounds_ticks_bind (l := edge.points.length) ?_) (by omega)
    split
    · exact rounds_ticks_bind (l := 0) (by simp)
    · simp

theorem withDirectedEdgesT_rounds {δ : Type} (t : Topology δ) (des : List DirectedEdge) :
    (withDirectedEdgesT t des).rounds ≤ 2 * pathsVolume (des.map (pathOf t)) := by
  induction des with
  | nil => simp [withDirectedEdgesT]
  | cons de rest ih =>
    rw [List.map_cons, pathsVolume_cons]
    have : (withDirectedEdgesT t (de :: rest)).rounds ≤
        (2 * (pathOf t de).length + (2 * pathsVolume (rest.map (pathOf t)) + 0)) + 1 :=
      rounds_tick_bind (rounds_bind (withDirectedEdgeT_rounds t de) fun _ _ => rounds_bind ih fun _ _ => by simp)
    omega

theorem joinLoopT_rounds (ret es : List NormEdge) : (joinLoopT ret es).rounds ≤ edgeSize gVol es := by
  induction es generalizing ret with
  | nil => simp [joinLoopT]
  | cons e rest ih =>
    rw [edgeSize_cons]
    have : (joinLoopT ret (e :: rest)).rounds ≤ (e.points.length + edgeSize gVol rest) + 1 :=
      rounds_tick_bind (rounds_ticks_bind (rounds_lift_bind fun r _ => ih r))
    unfold gVol at *
    omega

theorem joinWrapT_rounds (ret : List NormEdge) : (joinWrapT ret).rounds ≤ edgeSize gVol ret := by
  match ret with
  | [] => simp [joinWrapT]
  | [_] => simp [joinWrapT]
  | first :: second :: rest =>
    simp only [joinWrapT]
    split
    · obtain ⟨init, last, hs⟩ : ∃ init last, second :: rest = init ++ [last] := by
        rcases snoc_cases (second :: rest) with h | h
        · cases h
        · exact h
      rw [edgeSize_cons]
      simp only [hs, List.getLast_append_singleton]
      rw [edgeSize_append, edgeSize_cons]
      refine Nat.le_trans (rounds_ticks_bind (rounds_ticks_bind (l := 0) (by simp))) ?_
      unfold gVol
      omega
    · simp

theorem joinRelatedEdgesT_rounds (es : List NormEdge) : (joinRelatedEdgesT es).rounds ≤ 2 * edgeSize gVol es := by
  have : (joinRelatedEdgesT es).rounds ≤ edgeSize gVol es + edgeSize gVol es := by
    refine rounds_bind (joinLoopT_rounds [] es) fun r hr => Nat.le_trans (joinWrapT_rounds r) ?_
    rw [joinLoopT_result] at hr
    have := joinLoop_size gVol_sub hr
    have e : edgeSize gVol [] = 0 := rfl
    omega
  omega

theorem windEdgesT_rounds (m : Build) (es : List NormEdge) (order : WindingOrder) :
    (windEdgesT m es order).rounds ≤ 3 * edgeSize gVol es := by
  have : (windEdgesT m es order).rounds ≤ (edgeSize gVol es + 0) + (edgeSize gVol es + (edgeSize gVol es + 0)) := by
    rw [← normRounds_eq]
    refine rounds_bind (rounds_ticks_bind (by simp)) fun w _ => rounds_ticks_bind ?_
    split
    · simp
    · exact rounds_ticks_bind (by simp)
  omega

theorem rotateEdgesT_rounds (es : List NormEdge) : (rotateEdgesT es).rounds ≤ 2 * edgeSize gVol es := by
  unfold rotateEdgesT
  split
  · rename_i e
    refine Nat.le_trans (rounds_bind (k := e.points.length + (e.points.length + 0)) (l := 0) ?_ fun _ _ => by simp) ?_
    · exact rounds_ticks_bind (rounds_ticks_bind (by simp))
    · rw [edgeSize_cons]; unfold gVol; omega
  · refine Nat.le_trans (rounds_ticks_bind (rounds_ticks_bind (l := 0) (by simp))) ?_
    have := length_le_volume es
    rw [normRounds_eq]
    omega

theorem normalizeRingT_rounds {δ : Type} (m : Build) (t : Topology δ) (order : WindingOrder) (ring : TopoRing) :
    (normalizeRingT m t order ring).rounds + 1 ≤ 9 * topoRingVolume t ring := by
  have e : pathsVolume (ring.directedEdges.map (pathOf t)) + 1 = topoRingVolume t ring := by
    simp only [topoRingVolume, pathsOf]; omega
  generalize hW : pathsVolume (ring.directedEdges.map (pathOf t)) = W at e
  have : (normalizeRingT m t order ring).rounds ≤ 2 * W + (2 * W + (3 * W + 2 * W)) := by
    refine rounds_bind (hW ▸ withDirectedEdgesT_rounds t _) fun es h1 => ?_
    rw [withDirectedEdgesT_result] at h1
    have s1 : edgeSize gVol es = W := by
      rw [withDirectedEdges_size h1, ← hW]
      simp [pathsVolume, Function.comp_def]
    refine rounds_bind (s1 ▸ joinRelatedEdgesT_rounds es) fun joined h2 => ?_
    rw [joinRelatedEdgesT_result] at h2
    have s2 := joinRelatedEdges_size gVol_sub h2
    refine rounds_bind (Nat.le_trans (windEdgesT_rounds m joined order) (by omega)) fun wound h3 => ?_
    rw [windEdgesT_result] at h3
    have s3 := windEdges_size (g := gVol) h3
    exact Nat.le_trans (rotateEdgesT_rounds wound) (by omega)
  omega

/-- The size of rings of a topology. -/
def topoRingsVolume {δ : Type} (t : Topology δ) (rs : List TopoRing) : Nat := (rs.map (topoRingVolume t)).sum

theorem topoRingsVolume_cons {δ : Type} (t : Topology δ) (r : TopoRing) (rs : List TopoRing) :
    topoRingsVolume t (r :: rs) = topoRingVolume t r + topoRingsVolume t rs := by simp [topoRingsVolume]

theorem normalizeRingsT_rounds {δ : Type} (m : Build) (t : Topology δ) (order : WindingOrder) (rs : List TopoRing) :
    (normalizeRingsT m t order rs).rounds ≤ 9 * topoRingsVolume t rs := by
  induction rs with
  | nil => simp [normalizeRingsT]
  | cons r rest ih =>
    rw [topoRingsVolume_cons]
    have h1 := normalizeRingT_rounds m t order r
    have : (normalizeRingsT m t order (r :: rest)).rounds ≤
        ((normalizeRingT m t order r).rounds + (9 * topoRingsVolume t rest + 0)) + 1 :=
      rounds_tick_bind (rounds_bind (Nat.le_refl _) fun _ _ => rounds_bind ih fun _ _ => by simp)
    omega

/-- Rings and their edges and points. -/
def normVolume (rs : List NormRing) : Nat := rs.length + ringsSize gVol rs

theorem normVolume_cons (r : NormRing) (rs : List NormRing) : normVolume (r :: rs) = 1 + edgeSize gVol r + normVolume rs := by
  simp only [normVolume, ringsSize_cons, List.length_cons]; omega

theorem normalizeRings_volume {δ : Type} {m : Build} {t : Topology δ} {order : WindingOrder} {rs : List TopoRing}
    {out : List NormRing} (h : normalizeRings m t order rs = .ok out) : normVolume out ≤ topoRingsVolume t rs := by
  induction rs generalizing out with
  | nil => obtain rfl := Except.ok.inj h; simp [normVolume, ringsSize]
  | cons r rest ih =>
    simp only [normalizeRings, bind_ok] at h
    obtain ⟨n, h1, ns, h2, h⟩ := h
    obtain rfl := Except.ok.inj h
    have a1 := normalizeRing_size gVol_sub h1
    have a2 := ih h2
    have e : ringSize gVol t r + 1 = topoRingVolume t r := by
      simp only [ringSize, topoRingVolume, pathsVolume, gVol]; omega
    rw [normVolume_cons, topoRingsVolume_cons]
    omega

theorem mergeMap_insert_length {map map' : MergeMap} {k : Point} {e : NormEdge} (h : map.insert k e = .ok map') :
    map'.length = map.length + 1 := by
  have := mergeMap_insert_size (g := fun _ => 1) h
  rw [edgeSize_gOne, edgeSize_gOne] at this
  simp only [mapEdges, List.length_map] at this
  omega

theorem indexEdgesT_rounds {map : MergeMap} {es : List NormEdge} {B : Nat} (hB : map.length + es.length ≤ B) :
    (indexEdgesT map es).rounds ≤ edgeSize gVol es + es.length * mapRounds B := by
  induction es generalizing map with
  | nil => simp [indexEdgesT]
  | cons e rest ih =>
    rw [List.length_cons] at hB
    rw [edgeSize_cons, List.length_cons, Nat.add_mul, Nat.one_mul]
    have : (indexEdgesT map (e :: rest)).rounds ≤
        (mapRounds B + (e.points.length + (edgeSize gVol rest + rest.length * mapRounds B))) + 1 := by
      refine rounds_tick_bind ?_
      cases e.points.head? with
      | none => simp
      | some p =>
        dsimp only
        refine Nat.le_trans (rounds_ticks_bind (rounds_ticks_bind (rounds_lift_bind
          (l := edgeSize gVol rest + rest.length * mapRounds B) fun map' h => ih ?_))) ?_
        · have := mergeMap_insert_length h
          omega
        · have := log2_mono (a := map.length) (b := B) (by omega)
          unfold mapRounds
          omega
    unfold gVol at *
    omega

theorem indexEdges_length {map map' : MergeMap} {es : List NormEdge} (h : indexEdges map es = .ok map') :
    map'.length = map.length + es.length := by
  have := indexEdges_size (g := fun _ => 1) h
  rw [edgeSize_gOne, edgeSize_gOne, edgeSize_gOne] at this
  simp only [mapEdges, List.length_map] at this
  omega

theorem splitRingsT_rounds {ret : List NormRing} {map : MergeMap} {rings : List NormRing} {B : Nat}
    (hB : map.length + ringsSize gVol rings ≤ B) :
    (splitRingsT ret map rings).rounds ≤ 3 * normVolume rings + ringsSize gVol rings * mapRounds B := by
  induction rings generalizing ret map with
  | nil => simp [splitRingsT]
  | cons r rest ih =>
    have hl := length_le_volume r
    have hu : edgeSize gVol (r.filter fun e => !e.isRedundant) ≤ edgeSize gVol r :=
      edgeSize_sublist _ List.filter_sublist
    have hn : (r.filter fun e => !e.isRedundant).length ≤ r.length := List.length_filter_le ..
    rw [ringsSize_cons] at hB
    rw [ringsSize_cons, normVolume_cons, Nat.add_mul]
    have hm : (r.filter fun e => !e.isRedundant).length * mapRounds B ≤ edgeSize gVol r * mapRounds B :=
      Nat.mul_le_mul_right _ (hn.trans hl)
    have : (splitRingsT ret map (r :: rest)).rounds ≤ (normRounds r + (r.length + (edgeSize gVol r +
        edgeSize gVol r * mapRounds B + (3 * normVolume rest + ringsSize gVol rest * mapRounds B)))) + 1 := by
      refine rounds_tick_bind (rounds_ticks_bind (rounds_ticks_bind ?_))
      dsimp only
      split
      · exact Nat.le_trans (ih (by omega)) (by omega)
      · split
        · exact Nat.le_trans (ih (by omega)) (by omega)
        · refine rounds_bind (Nat.le_trans (indexEdgesT_rounds (B := B) (by omega)) (by omega)) fun map' h => ih ?_
          rw [indexEdgesT_result] at h
          have := indexEdges_length h
          omega
    rw [normRounds_eq] at this
    omega

theorem splitRings_count {ret ret' : List NormRing} {map map' : MergeMap} {rings : List NormRing}
    (h : splitRings ret map rings = .ok (ret', map')) :
    ret'.length ≤ ret.length + rings.length := by
  induction rings generalizing ret map with
  | nil => obtain ⟨rfl, rfl⟩ := Prod.mk.inj (Except.ok.inj h); simp
  | cons r rest ih =>
    simp only [splitRings] at h
    rw [List.length_cons]
    split at h
    · have := ih h
      simp only [List.length_append, List.length_cons, List.length_nil] at this
      omega
    · split at h
      · have := ih h; omega
      · rw [bind_ok] at h
        obtain ⟨m1, _, h⟩ := h
        have := ih h; omega

theorem mergeMap_remove_length {map map' : MergeMap} {k : Point} {e : NormEdge} (h : map.remove k = some (e, map')) :
    map.length = map'.length + 1 := by
  have := mergeMap_remove_size (g := fun _ => 1) h
  rw [edgeSize_gOne, edgeSize_gOne] at this
  simp only [mapEdges, List.length_map] at this
  omega

theorem rounds_ticks_bind_eq {β : Type} (n : Nat) (f : Unit → Timed β) : (ticks n >>= f).rounds = n + (f ()).rounds :=
  rounds_after ..

theorem rounds_tick_bind_eq {β : Type} (f : Unit → Timed β) : (tick >>= f).rounds = 1 + (f ()).rounds := rounds_after ..

/-- Following edges takes a round for each edge removed, and one more if the
next edge is missing. -/
theorem followT_rounds {start current : Point} {fuel : Nat} {map : MergeMap} {es : List NormEdge} {B : Nat}
    (hB : map.length ≤ B) :
    (∀ e, (followT start fuel current map es).result = .error e →
      (followT start fuel current map es).rounds ≤ (map.length + 1) * (1 + mapRounds B)) ∧
    (∀ x, (followT start fuel current map es).result = .ok x → x.2.length < map.length ∧
      (followT start fuel current map es).rounds ≤ (map.length - x.2.length) * (1 + mapRounds B)) := by
  have hlog : mapRounds map.length ≤ mapRounds B := by
    have := log2_mono hB
    unfold mapRounds; omega
  induction fuel generalizing current map es with
  | zero => exact ⟨fun e _ => by simp [followT], fun x h => by cases h⟩
  | succ fuel ih =>
    simp only [followT, rounds_tick_bind_eq, rounds_ticks_bind_eq, result_bind, result_tick, result_ticks, ok_bind']
    have hone : 1 + mapRounds map.length ≤ (map.length + 1) * (1 + mapRounds B) := by
      rw [Nat.add_mul, Nat.one_mul]; omega
    cases hrem : map.remove current with
    | none => exact ⟨fun e _ => by simpa using hone, fun x h => by simp at h⟩
    | some y =>
      obtain ⟨edge, map'⟩ := y
      have hlen := mergeMap_remove_length hrem
      have hlog' : mapRounds map'.length ≤ mapRounds B := by
        have := log2_mono (a := map'.length) (b := B) (by omega)
        unfold mapRounds; omega
      dsimp only
      cases edge.points.getLast? with
      | none => exact ⟨fun e _ => by simpa using hone, fun x h => by simp at h⟩
      | some e =>
        dsimp only
        split
        · refine ⟨fun e h => by simp at h, fun x h => ?_⟩
          obtain rfl := Except.ok.inj h
          dsimp only
          have : map.length - map'.length = 1 := by omega
          rw [this, rounds_pure]
          omega
        · obtain ⟨ih1, ih2⟩ := ih (current := e) (map := map') (es := es ++ [edge]) (by omega) hlog'
          refine ⟨fun e h => ?_, fun x h => ?_⟩
          · have := ih1 e h
            have hm : (map.length + 1) * (1 + mapRounds B) = (map'.length + 1) * (1 + mapRounds B) + (1 + mapRounds B) := by
              rw [hlen, Nat.add_mul (map'.length + 1) 1, Nat.one_mul]
            omega
          · obtain ⟨h1, h2⟩ := ih2 x h
            refine ⟨by omega, ?_⟩
            have e : map.length - x.2.length = (map'.length - x.2.length) + 1 := by omega
            rw [e, Nat.add_mul, Nat.one_mul]
            omega

theorem mergeLoopT_rounds {fuel : Nat} {map : MergeMap} {ret : List NormRing} {B : Nat} (hB : map.length ≤ B) :
    (mergeLoopT fuel map ret).rounds ≤ (2 * map.length + 1) * (1 + mapRounds B) + 4 * edgeSize gVol (mapEdges map) := by
  induction fuel generalizing map ret with
  | zero => cases map <;> simp [mergeLoopT]
  | succ fuel ih =>
    cases map with
    | nil => simp [mergeLoopT]
    | cons x rest =>
      have hlog : mapRounds (x :: rest : MergeMap).length ≤ mapRounds B := by
        have := log2_mono hB
        unfold mapRounds; omega
      obtain ⟨f1, f2⟩ := followT_rounds (start := x.1) (current := x.1)
        (fuel := (x :: rest : MergeMap).length + 1) (es := []) hB
      have hpos : 1 ≤ (x :: rest : MergeMap).length := by simp
      generalize hmap : (x :: rest : MergeMap) = map at *
      generalize hK : 1 + mapRounds B = K at *
      have hstep : (mergeLoopT (fuel + 1) map ret).rounds ≤ 1 + (mapRounds map.length +
          ((2 * map.length) * K + 4 * edgeSize gVol (mapEdges map))) := by
        rw [← hmap]
        unfold mergeLoopT
        rw [hmap]
        refine rounds_bind (x := tick) (Nat.le_refl 1) fun _ _ => rounds_ticks_bind ?_
        refine rounds_bind_le (fun e he => ?_) fun em hem => ?_
        · refine Nat.le_trans (f1 e he) ?_
          have : (map.length + 1) * K ≤ (2 * map.length) * K := Nat.mul_le_mul_right _ (by omega)
          omega
        · obtain ⟨g1, g2⟩ := f2 em hem
          rw [followT_result] at hem
          have hsz := follow_size (g := gVol) hem
          have e0 : edgeSize gVol [] = 0 := rfl
          have hj : (joinRelatedEdgesT em.1 >>= fun joined => rotateEdgesT joined >>= fun rotated =>
              mergeLoopT fuel em.2 (ret ++ [rotated]) : Timed (List NormRing)).rounds ≤
              2 * edgeSize gVol em.1 + (2 * edgeSize gVol em.1 +
                ((2 * em.2.length + 1) * K + 4 * edgeSize gVol (mapEdges em.2))) := by
            refine rounds_bind (joinRelatedEdgesT_rounds _) fun joined h2 => ?_
            rw [joinRelatedEdgesT_result] at h2
            have s2 := joinRelatedEdges_size gVol_sub h2
            refine rounds_bind (Nat.le_trans (rotateEdgesT_rounds joined) (by omega)) fun rotated _ => ?_
            exact ih (by omega)
          have hmul : (map.length - em.2.length) * K + (2 * em.2.length + 1) * K ≤ (2 * map.length) * K := by
            rw [← Nat.add_mul]
            exact Nat.mul_le_mul_right _ (by omega)
          omega
      rw [Nat.add_mul (2 * map.length), Nat.one_mul]
      omega

theorem mergeLoop_count {fuel : Nat} {map : MergeMap} {ret out : List NormRing}
    (h : mergeLoop fuel map ret = .ok out) : out.length ≤ ret.length + map.length := by
  induction fuel generalizing map ret with
  | zero =>
    cases map with
    | nil => obtain rfl := Except.ok.inj h; simp
    | cons x rest => cases h
  | succ fuel ih =>
    cases map with
    | nil => obtain rfl := Except.ok.inj h; simp
    | cons x rest =>
      simp only [mergeLoop, bind_ok] at h
      obtain ⟨em, h1, joined, h2, rotated, h3, h4⟩ := h
      have a := ih h4
      have b := (followT_rounds (start := x.1) (current := x.1) (fuel := (x :: rest : MergeMap).length + 1) (es := [])
        (Nat.le_refl (x :: rest : MergeMap).length)).2 em (by rw [followT_result]; exact h1)
      simp only [List.length_append, List.length_cons, List.length_nil] at a b ⊢
      omega

theorem joinAdjacentRings_volume {rings out : List NormRing} (h : joinAdjacentRings rings = .ok out) :
    out.length ≤ normVolume rings ∧ normVolume out ≤ 2 * normVolume rings := by
  have hs := joinAdjacentRings_size gVol_sub h
  have hc : out.length ≤ normVolume rings := by
    simp only [joinAdjacentRings, bind_ok] at h
    obtain ⟨⟨ret, map⟩, h1, h⟩ := h
    have a1 := splitRings_count h1
    have a2 := splitRings_size (g := gVol) h1
    have a3 := length_le_volume (mapEdges map)
    have e1 : ringsSize gVol [] = 0 := rfl
    have e2 : edgeSize gVol (mapEdges []) = 0 := rfl
    simp only [mapEdges, List.length_map] at a2 a3
    simp only [mapEdges] at e2
    rw [List.length_nil] at a1
    dsimp only at h
    split at h
    · obtain rfl := Except.ok.inj h
      unfold normVolume; omega
    · rw [bind_ok] at h
      obtain ⟨ret', h2, h3⟩ := h
      have a4 := mergeLoop_count h2
      have a5 := (sortRings_ok h3).1.length_eq
      unfold normVolume; omega
  refine ⟨hc, ?_⟩
  have e : normVolume out = out.length + ringsSize gVol out := rfl
  have e' : normVolume rings = rings.length + ringsSize gVol rings := rfl
  omega

theorem sortRingsT_rounds {rings : List NormRing} {B : Nat} (hB : rings.length ≤ B) :
    (sortRingsT rings).rounds ≤ rings.length * mapRounds B := by
  refine Nat.le_trans (rounds_ticks_bind (l := 0) (by simp)) ?_
  have := log2_mono hB
  exact Nat.mul_le_mul_left _ (by unfold mapRounds; omega)

theorem joinAdjacentRingsT_rounds {rings : List NormRing} {B : Nat} (hB : normVolume rings ≤ B) :
    (joinAdjacentRingsT rings).rounds ≤ 15 * (normVolume rings * mapRounds B) := by
  have hL : 1 ≤ mapRounds B := by unfold mapRounds; omega
  have eV : normVolume rings = rings.length + ringsSize gVol rings := rfl
  generalize hA : normVolume rings = A at *
  have hAL : A ≤ A * mapRounds B := Nat.le_mul_of_pos_right _ hL
  have hRL : ringsSize gVol rings * mapRounds B ≤ A * mapRounds B := Nat.mul_le_mul_right _ (by omega)
  have : (joinAdjacentRingsT rings).rounds ≤ (3 * A + A * mapRounds B) + (7 * A + 3 * (A * mapRounds B) +
      A * mapRounds B) := by
    refine rounds_bind ?_ fun rm h1 => ?_
    · have := splitRingsT_rounds (ret := []) (map := []) (rings := rings) (B := B) (by simp; omega)
      rw [hA] at this
      omega
    · rw [splitRingsT_result] at h1
      obtain ⟨ret, map⟩ := rm
      have a1 := splitRings_count h1
      have a2 := splitRings_size (g := gVol) h1
      have a3 := length_le_volume (mapEdges map)
      have e1 : ringsSize gVol [] = 0 := rfl
      have e2 : edgeSize gVol (mapEdges []) = 0 := rfl
      have e3 : (mapEdges map).length = map.length := by simp [mapEdges]
      rw [List.length_nil] at a1
      dsimp only
      split
      · simp
      · rename_i hne
        refine rounds_bind ?_ fun ret' h2 => ?_
        · refine Nat.le_trans (mergeLoopT_rounds (B := B) (by omega)) ?_
          have : (2 * map.length + 1) * (1 + mapRounds B) ≤ (3 * A) * (1 + mapRounds B) :=
            Nat.mul_le_mul_right _ (by omega)
          have e : (3 * A) * (1 + mapRounds B) = 3 * A + 3 * (A * mapRounds B) := by
            rw [Nat.mul_add, Nat.mul_one, Nat.mul_assoc]
          omega
        · rw [mergeLoopT_result] at h2
          have a4 := mergeLoop_count h2
          have : ret'.length * mapRounds B ≤ A * mapRounds B := Nat.mul_le_mul_right _ (by omega)
          exact Nat.le_trans (sortRingsT_rounds (B := B) (by omega)) this
  omega

theorem normRings_count (rs : List NormRing) : (rs.map fun r => r.length + 1).sum ≤ normVolume rs := by
  induction rs with
  | nil => simp
  | cons r rs ih =>
    have := length_le_volume r
    rw [normVolume_cons, List.map_cons, List.sum_cons]
    omega

theorem normalizeRegionRingsT_rounds {δ : Type} (m : Build) (t : Topology δ) (rs : List TopoRing)
    (order : WindingOrder) {B : Nat} (hB : topoRingsVolume t rs ≤ B) :
    (normalizeRegionRingsT m t rs order).rounds ≤ 27 * (topoRingsVolume t rs * mapRounds B) := by
  have hL : 1 ≤ mapRounds B := by unfold mapRounds; omega
  generalize hA : topoRingsVolume t rs = A at *
  have hAL : A ≤ A * mapRounds B := Nat.le_mul_of_pos_right _ hL
  have : (normalizeRegionRingsT m t rs order).rounds ≤ 9 * A + (15 * (A * mapRounds B) + (A * mapRounds B +
      (2 * A + 0))) := by
    refine rounds_bind (hA ▸ normalizeRingsT_rounds m t order rs) fun ns h1 => ?_
    rw [normalizeRingsT_result] at h1
    have a1 := normalizeRings_volume h1
    have hns : normVolume ns * mapRounds B ≤ A * mapRounds B := Nat.mul_le_mul_right _ (by omega)
    refine rounds_bind (Nat.le_trans (joinAdjacentRingsT_rounds (B := B) (by omega)) (by omega)) fun joined h2 => ?_
    rw [joinAdjacentRingsT_result] at h2
    obtain ⟨a2, a3⟩ := joinAdjacentRings_volume h2
    have hj : joined.length * mapRounds B ≤ A * mapRounds B := Nat.mul_le_mul_right _ (by omega)
    refine rounds_bind (Nat.le_trans (sortRingsT_rounds (B := B) (by omega)) hj) fun sorted h3 => ?_
    rw [sortRingsT_result] at h3
    have a4 := (sortRings_ok h3).1
    refine Nat.le_trans (rounds_ticks_bind (l := 0) (by simp)) ?_
    have a5 := normRings_count joined
    have a6 : (sorted.map fun r => r.length + 1).sum = (joined.map fun r => r.length + 1).sum := (a4.map _).sum_nat
    omega
  omega

theorem normalizeRegionRings_volume {δ : Type} {m : Build} {t : Topology δ} {rs : List TopoRing}
    {order : WindingOrder} {out : List Ring} (h : normalizeRegionRings m t rs order = .ok out) :
    ringsVolume out ≤ 2 * topoRingsVolume t rs := by
  simp only [normalizeRegionRings, normalizeRegionNormRings, bind_ok] at h
  obtain ⟨sorted, ⟨ns, h1, joined, h2, h3⟩, h⟩ := h
  obtain rfl := Except.ok.inj h
  have a1 := normalizeRings_volume h1
  have a2 := (joinAdjacentRings_volume h2).2
  have a3 := (sortRings_ok h3).1
  have e : ringsVolume (sorted.map normRingToRing) = normVolume sorted := by
    clear h h2 h3 a1 a2 a3
    induction sorted with
    | nil => rfl
    | cons r rs ih =>
      rw [List.map_cons, ringsVolume_cons, ih, normVolume_cons, edgeSize_gVol]
      rfl
  have e2 : normVolume sorted = normVolume joined := by
    simp only [normVolume, ringsSize, a3.length_eq, (a3.map _).sum_nat]
  omega

theorem topoRegionVolume_eq {δ : Type} (t : Topology δ) (r : TopoRegion δ) :
    topoRegionVolume t r = 1 + topoRingsVolume t r.outerRings + topoRingsVolume t r.innerRings := by
  simp only [topoRegionVolume, topoRingsVolume, List.map_append, List.sum_append]; omega

theorem normalizeRegion_volume {δ : Type} {m : Build} {t : Topology δ} {r : TopoRegion δ} {out : Region δ}
    (h : normalizeRegion m t r = .ok out) : regionVolume out ≤ 2 * topoRegionVolume t r := by
  simp only [normalizeRegion, bind_ok] at h
  obtain ⟨o, h1, i, h2, h⟩ := h
  obtain rfl := Except.ok.inj h
  have a1 := normalizeRegionRings_volume h1
  have a2 := normalizeRegionRings_volume h2
  rw [regionVolume_eq, topoRegionVolume_eq]
  dsimp only
  omega

theorem normalizeRegionT_rounds {δ : Type} (m : Build) (t : Topology δ) (r : TopoRegion δ) {B : Nat}
    (hB : topoRegionVolume t r ≤ B) :
    (normalizeRegionT m t r).rounds ≤ 27 * (topoRegionVolume t r * mapRounds B) := by
  have hL : 1 ≤ mapRounds B := by unfold mapRounds; omega
  rw [topoRegionVolume_eq] at *
  rw [Nat.add_mul, Nat.add_mul, Nat.one_mul]
  have : (normalizeRegionT m t r).rounds ≤ (27 * (topoRingsVolume t r.outerRings * mapRounds B) +
      (27 * (topoRingsVolume t r.innerRings * mapRounds B) + 0)) + 1 :=
    rounds_tick_bind (rounds_bind (normalizeRegionRingsT_rounds m t _ _ (by omega)) fun _ _ =>
      rounds_bind (normalizeRegionRingsT_rounds m t _ _ (by omega)) fun _ _ => by simp)
  omega

/-- The size of regions of a topology. -/
def topoRegionsVolume {δ : Type} (t : Topology δ) (rs : List (TopoRegion δ)) : Nat :=
  (rs.map (topoRegionVolume t)).sum

theorem topoRegionsVolume_cons {δ : Type} (t : Topology δ) (r : TopoRegion δ) (rs : List (TopoRegion δ)) :
    topoRegionsVolume t (r :: rs) = topoRegionVolume t r + topoRegionsVolume t rs := by simp [topoRegionsVolume]

theorem normalizeLoopT_rounds {δ : Type} (m : Build) (t : Topology δ) (b : TopologyBuilder δ)
    (rs : List (TopoRegion δ)) {B : Nat} (hB : topoRegionsVolume t rs ≤ B) :
    (normalizeLoopT m t b rs).rounds ≤ 71 * (topoRegionsVolume t rs * mapRounds B) := by
  induction rs generalizing b with
  | nil => simp [normalizeLoopT]
  | cons r rest ih =>
    have hL : 1 ≤ mapRounds B := by unfold mapRounds; omega
    rw [topoRegionsVolume_cons] at *
    rw [Nat.add_mul]
    have hAL : topoRegionVolume t r ≤ topoRegionVolume t r * mapRounds B := Nat.le_mul_of_pos_right _ hL
    have : (normalizeLoopT m t b (r :: rest)).rounds ≤ 27 * (topoRegionVolume t r * mapRounds B) +
        (44 * topoRegionVolume t r + 71 * (topoRegionsVolume t rest * mapRounds B)) := by
      refine rounds_bind (normalizeRegionT_rounds m t r (by omega)) fun region h1 => ?_
      rw [normalizeRegionT_result] at h1
      have a1 := normalizeRegion_volume h1
      exact rounds_bind (Nat.le_trans (addRegionT_rounds m b region) (by omega)) fun b' _ => ih b' (by omega)
    omega

theorem normalizeLoop_length {δ : Type} {m : Build} {t : Topology δ} {b b' : TopologyBuilder δ}
    {rs : List (TopoRegion δ)} (h : normalizeLoop m t b rs = .ok b') :
    buildRounds b'.regions ≤ buildRounds b.regions + 2 * topoRegionsVolume t rs ∧
      b'.edges.length ≤ b.edges.length + 2 * topoRegionsVolume t rs := by
  induction rs generalizing b with
  | nil => obtain rfl := Except.ok.inj h; simp
  | cons r rest ih =>
    simp only [normalizeLoop, bind_ok] at h
    obtain ⟨region, h1, b1, h2, h3⟩ := h
    have a1 := normalizeRegion_volume h1
    have a2 := addRegion_length h2
    have a3 := ih h3
    rw [topoRegionsVolume_cons]
    omega

theorem normalizeT_rounds {δ : Type} (m : Build) (t : Topology δ) :
    (normalizeT m t).rounds ≤ 83 * (walkedVolume t * ((walkedVolume t).log2 + 1)) := by
  have hw : walkedVolume t = topoRegionsVolume t t.regions := rfl
  rw [hw]
  generalize hS : topoRegionsVolume t t.regions = S
  have hL : 1 ≤ mapRounds S := by unfold mapRounds; omega
  have hAL : S ≤ S * mapRounds S := Nat.le_mul_of_pos_right _ hL
  show _ ≤ 83 * (S * mapRounds S)
  have : (normalizeT m t).rounds ≤ 71 * (S * mapRounds S) + 12 * S := by
    refine rounds_bind (hS ▸ normalizeLoopT_rounds m t _ _ (Nat.le_refl _)) fun b hb => ?_
    rw [normalizeLoopT_result] at hb
    have h1 := normalizeLoop_length hb
    have h2 := intoTopologyT_rounds b
    have e1 : buildRounds (TopologyBuilder.new (δ := δ)).regions = 0 := rfl
    have e2 : (TopologyBuilder.new (δ := δ)).edges.length = 0 := rfl
    rw [hS] at h1
    omega
  omega

end TopoGeo
