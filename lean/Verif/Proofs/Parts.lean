import Mathlib.Data.List.NodupEquivFin
import Verif.Spec.Parts
import Verif.Proofs.OrderNormalize
import Verif.Props.Order
/-!
# What becomes of a part of a map
-/

namespace TopoGeo

open Spec

variable {δ : Type} {m : Build}

theorem exists_embedding {α : Type} [DecidableEq α] {l k : List α} (hnd : l.Nodup) (h : ∀ a ∈ l, a ∈ k) :
    ∃ f : Nat → Nat, (∀ i < l.length, ∀ j < l.length, f i = f j → i = j) ∧ ∀ i a, l[i]? = some a → k[f i]? = some a := by
  have key : ∀ (i : Nat) (a : α), l[i]? = some a → k[(l[i]?.map (keyIdx k)).getD 0]? = some a := by
    intro i a ha
    rw [ha]
    exact getElem?_keyIdx (h a (List.mem_of_getElem? ha))
  refine ⟨fun i => (l[i]?.map (keyIdx k)).getD 0, fun i hi j hj hij => ?_, key⟩
  have h1 := key i _ (List.getElem?_eq_getElem hi)
  have h2 := key j _ (List.getElem?_eq_getElem hj)
  dsimp only at hij
  rw [hij, h2] at h1
  exact (List.Nodup.getElem_inj_iff hnd).mp (Option.some.inj h1).symm

/-! ## Finishing -/

theorem sublist_of_eq {α : Type} {l k : List α} (h : l = k) : l.Sublist k := h ▸ List.Sublist.refl _

theorem sublist_flatMap {α β : Type} {l k : List α} (h : l.Sublist k) (f : α → List β) : (l.flatMap f).Sublist (k.flatMap f) := by
  induction h with
  | slnil => exact List.Sublist.refl _
  | cons a _ ih => exact ih.trans (List.sublist_append_right _ _)
  | cons_cons a _ ih => exact List.Sublist.append (List.Sublist.refl _) ih

theorem finishTopology_part {P P' : List (List Point)} {B B' : List (BuildRegion δ)} {f : Nat → Nat} {t : Topology δ}
    (hf : ∀ i < P.length, ∀ j < P.length, f i = f j → i = j) (hp : ∀ i c, P[i]? = some c → P'[f i]? = some c)
    (hB : (B.map (renumberBuild f)).Sublist B') (hb : ∀ r ∈ B, InBounds P.length r) (h : finishTopology P' B' = .ok t) :
    ∃ u g, finishTopology P B = .ok u ∧ PartOf f g u t := by
  have hb' := finishTopology_of_ok h
  have hle' : ∀ i, (usersOf (regionsUses 0 B') i).length ≤ 2 := by
    rw [finishTopology_eq hb'] at h
    split at h
    · assumption
    · cases h
  have hle : ∀ i, (usersOf (regionsUses 0 B) i).length ≤ 2 := by
    intro i
    by_cases hi : i < P.length
    · refine le_trans ?_ (hle' (f i))
      rw [usersOf_length, usersOf_length, regionsUses_edges, regionsUses_edges]
      refine le_trans ?_ (List.Sublist.count_le _ (sublist_flatMap hB fun r => (r.outerRings.flatten ++ r.innerRings.flatten).map (·.edge)))
      rw [List.flatMap_map]
      have : (B.flatMap fun r => ((renumberBuild f r).outerRings.flatten ++ (renumberBuild f r).innerRings.flatten).map (·.edge)) =
          (B.flatMap fun r => (r.outerRings.flatten ++ r.innerRings.flatten).map (·.edge)).map f := by
        rw [List.map_flatMap]
        apply List.flatMap_congr
        intro r _
        simp [renumberBuild, List.map_flatten, Function.comp_def]
      rw [this]
      rw [List.count, List.count, List.countP_map]
      apply List.countP_mono_left
      intro x _ hx
      simp only [beq_iff_eq] at hx
      simp [hx]
    · have : usersOf (regionsUses 0 B) i = [] := by
        unfold usersOf
        rw [List.map_eq_nil_iff, List.filter_eq_nil_iff]
        intro x hx
        have := regionsUses_bound hb 0 x hx
        simp only [decide_eq_true_eq]
        omega
      rw [this]; simp
  have hfin := finishTopology_eq hb
  rw [if_pos hle] at hfin
  obtain ⟨g, hg⟩ := List.sublist_iff_exists_orderEmbedding_getElem?_eq.mp hB
  obtain ⟨_, htp, htr⟩ := finishTopology_backPointers h
  obtain ⟨_, hup, hur⟩ := finishTopology_backPointers hfin
  refine ⟨_, g, hfin, ?_⟩
  generalize (⟨setRegionPtrs 0 (B.map toTopoRegion), edgesAfter P (regionsUses 0 B)⟩ : Topology δ) = u at hup hur
  refine ⟨?_, fun i j hij => g.strictMono hij, ?_, ?_⟩
  · have : u.edges.length = P.length := by rw [← hup, List.length_map]
    rw [this]
    exact hf
  · intro i e he
    have h1 : P[i]? = some e.points := by rw [← hup, List.getElem?_map, he]; rfl
    have h2 := hp i _ h1
    rw [← htp, List.getElem?_map] at h2
    exact Option.map_eq_some_iff.mp h2
  · intro j
    have := hg j
    rw [htr, hur, setRegionPtrs_getElem?, setRegionPtrs_getElem?, List.getElem?_map, List.getElem?_map, ← this, List.getElem?_map]
    cases B[j]? with
    | none => rfl
    | some b =>
      simp only [Option.map_some, Nat.zero_add]
      rw [setRegionPtr_renumber]

/-! ## Building -/

theorem keptRegions_sublist {rs qs : List (Region δ)} (h : qs.Sublist rs) : (keptRegions qs).Sublist (keptRegions rs) :=
  (h.filter _).map _

theorem build_part {rs qs : List (Region δ)} (hs : qs.Sublist rs) {t : Topology δ} (h : buildTopology m rs = .ok t) :
    ∃ u f g, buildTopology m qs = .ok u ∧ PartOf f g u t := by
  have hadd : ∀ r ∈ rs, ∃ b' : TopologyBuilder δ, TopologyBuilder.new.addRegion m r = .ok b' := by
    simp only [buildTopology, bind_ok] at h
    obtain ⟨b, hb, _⟩ := h
    exact addRegions_ok_iff.mp ⟨b, hb⟩
  have hq := buildTopology_eq_finish (m := m) (rs := qs) fun r hr => hadd r (hs.subset hr)
  have hsub : ∀ k ∈ keysOf qs, k ∈ keysOf rs := by
    intro k hk
    obtain ⟨e, he, rfl⟩ := mem_keysOf.mp hk
    refine stored_mem_keysOf ?_
    obtain ⟨r, hr, he⟩ := List.mem_flatMap.mp he
    exact List.mem_flatMap.mpr ⟨r, (keptRegions_sublist hs).subset hr, he⟩
  obtain ⟨f, hf, hfk⟩ := exists_embedding (nodup_keysOf qs) hsub
  have hB : (((keptRegions qs).map (toBuildRegion (keysOf qs))).map (renumberBuild f)).Sublist
      ((keptRegions rs).map (toBuildRegion (keysOf rs))) := by
    refine List.Sublist.trans (sublist_of_eq ?_) ((keptRegions_sublist hs).map _)
    rw [List.map_map]
    apply List.map_congr_left
    intro k hk
    have hd : ∀ e ∈ k.outer.flatten ++ k.inner.flatten,
        (⟨f (directedFor (keysOf qs) e).edge, (directedFor (keysOf qs) e).direction⟩ : DirectedEdge) = directedFor (keysOf rs) e := by
      intro e he
      have := keyIdx_reorder (nodup_keysOf rs) hfk (stored_mem_keysOf (mem_allPaths hk he))
      simp only [directedFor]
      rw [this]
    simp only [toBuildRegion, renumberBuild, Function.comp, List.map_map]
    congr 1
    · apply List.map_congr_left
      intro p hp
      simp only [Function.comp, List.map_map]
      apply List.map_congr_left
      intro e he
      exact hd e (by simp only [List.mem_append, List.mem_flatten]; exact Or.inl ⟨p, hp, he⟩)
    · apply List.map_congr_left
      intro p hp
      simp only [Function.comp, List.map_map]
      apply List.map_congr_left
      intro e he
      exact hd e (by simp only [List.mem_append, List.mem_flatten]; exact Or.inr ⟨p, hp, he⟩)
  obtain ⟨u, g, h1, h2⟩ := finishTopology_part hf hfk hB (toBuildRegion_inBounds qs) (buildTopology_ok h)
  exact ⟨u, f, g, by rw [hq, h1], h2⟩

/-! ## Simplifying -/

theorem simplified_at {s : Nat} {es es' : List TopoEdge} {i : Nat} {e' : TopoEdge} (hes : List.Forall₂ (SimplifiedTo m s) es es')
    (he : es'[i]? = some e') : ∃ e, es[i]? = some e ∧ SimplifiedTo m s e e' := by
  induction hes generalizing i with
  | nil => simp at he
  | cons a _ ih =>
    cases i with
    | zero =>
      simp only [List.getElem?_cons_zero, Option.some.injEq] at he ⊢
      exact ⟨_, rfl, he ▸ a⟩
    | succ i => simpa using ih (by simpa using he)

theorem simplify_part {f g : Nat → Nat} {t u t' : Topology δ} {s : Nat} (h : PartOf f g u t) (hn : simplify m t s = .ok t') :
    ∃ u', simplify m u s = .ok u' ∧ PartOf f g u' t' := by
  have hall : ∀ e ∈ t.edges, ∃ ps, simplifyEdge m e.points s = .ok ps := by
    simp only [simplify, bind_ok] at hn
    obtain ⟨es, h1, _⟩ := hn
    exact simplifyEdges_ok_iff.mp ⟨es, h1⟩
  obtain ⟨es', hes'⟩ : ∃ es', simplifyEdges m s u.edges = .ok es' := by
    rw [simplifyEdges_ok_iff]
    intro e he
    obtain ⟨i, hi⟩ := List.getElem?_of_mem he
    obtain ⟨e', h1, h2⟩ := h.edge i e hi
    rw [← h2]
    exact hall e' (List.mem_of_getElem? h1)
  have hu : simplify m u s = .ok { u with edges := es' } := by
    unfold simplify
    rw [hes', ok_bind]
  refine ⟨_, hu, ?_⟩
  obtain ⟨h1, h2⟩ := C45_frame m t t' s hn
  obtain ⟨-, h2'⟩ := C45_frame m u _ s hu
  dsimp only at h2'
  refine ⟨by dsimp only; rw [← h2'.length_eq]; exact h.inj, h.increasing, ?_, by rw [h1]; exact h.region⟩
  intro i e he
  dsimp only at he
  obtain ⟨e0, h3, h4⟩ := simplified_at h2' he
  obtain ⟨e1, h5, h6⟩ := h.edge i e0 h3
  have hi := (List.getElem?_eq_some_iff.mp h5).1
  rw [h2.length_eq] at hi
  refine ⟨t'.edges[f i], List.getElem?_eq_getElem hi, ?_⟩
  obtain ⟨e2, h8, h9⟩ := simplified_at h2 (List.getElem?_eq_getElem hi)
  rw [h5] at h8
  obtain rfl := Option.some.inj h8
  have b1 := h9.1
  rw [h6, h4.1] at b1
  exact (Except.ok.inj b1).symm

/-! ## Clipping -/

theorem Spec.PartOf.regions_sublist {f g : Nat → Nat} {t u : Topology δ} (h : PartOf f g u t) :
    (u.regions.map (renumberRegion f g)).Sublist t.regions := by
  rw [List.sublist_iff_exists_orderEmbedding_getElem?_eq]
  refine ⟨OrderEmbedding.ofStrictMono g fun i j hij => h.increasing i j hij, fun j => ?_⟩
  rw [List.getElem?_map]
  exact (h.region j).symm

theorem clipPart {mask : ClipMask} {f g : Nat → Nat} {t u t' : Topology δ} (h : PartOf f g u t)
    (ht : BackPointersExact t) (hu : BackPointersExact u) (hclip : clipTopology m t mask = .ok t') :
    ∃ u' f' g', clipTopology m u mask = .ok u' ∧ PartOf f' g' u' t' := by
  have hin' := regionIn_of_backPointers ht
  have hin := regionIn_of_backPointers hu
  simp only [clipTopology, bind_ok] at hclip
  obtain ⟨b', h1', ⟨regions', b1'⟩, h2', hclip⟩ := hclip
  obtain ⟨cs', hcs', hfe', _⟩ := clipBuilder_new_ok h1'
  have hlen' := hcs'.length_eq
  -- the other clipper
  have hnew : ∃ b, ClipBuilder.new m mask u.edges = .ok b := by
    have h3 : ∃ x, clipOldEdges m mask [] [] t.edges = .ok x := by
      simp only [ClipBuilder.new, bind_ok] at h1'
      obtain ⟨x, hx, _⟩ := h1'
      exact ⟨x, hx⟩
    have h4 : ∃ x, clipOldEdges m mask [] [] u.edges = .ok x := by
      rw [clipOldEdges_ok_iff] at h3 ⊢
      intro e he
      obtain ⟨i, hi⟩ := List.getElem?_of_mem he
      obtain ⟨e', h5, h6⟩ := h.edge i e hi
      rw [← h6]
      exact h3 e' (List.mem_of_getElem? h5)
    obtain ⟨x, hx⟩ := h4
    exact ⟨_, by simp only [ClipBuilder.new, hx, ok_bind]; rfl⟩
  obtain ⟨b, h1⟩ := hnew
  obtain ⟨cs, hcs, hfe, _⟩ := clipBuilder_new_ok h1
  have hlen := hcs.length_eq
  have hc : SameClipped f cs cs' := by
    intro i c hci
    obtain ⟨e, h3, h4⟩ := clippedBy_at hcs hci
    obtain ⟨e', h5, h6⟩ := h.edge i e h3
    have hi' := (List.getElem?_eq_some_iff.mp h5).1
    rw [hlen'] at hi'
    obtain ⟨c', hc'⟩ : ∃ c', cs'[f i]? = some c' := ⟨cs'[f i], List.getElem?_eq_getElem hi'⟩
    obtain ⟨e2, h7, h8⟩ := clippedBy_at hcs' hc'
    rw [h5] at h7
    obtain rfl := Option.some.inj h7
    rw [h6, h4] at h8
    rw [hc', Except.ok.inj h8]
  rw [hlen] at hin
  rw [hlen'] at hin'
  have hf : ∀ i < cs.length, ∀ j < cs.length, f i = f j → i = j := by rw [← hlen]; exact h.inj
  have hsub := h.regions_sublist
  have h2 : ∃ x, clipRegions m b u.regions = .ok x := by
    rw [clipRegions_ok_iff hfe hfe hin]
    intro r hr
    rw [(clipRegion_both (g := g) hc hfe hfe' (hin r hr)).ok_iff]
    exact (clipRegions_ok_iff hfe' hfe' hin').mp ⟨_, h2'⟩ _ (hsub.subset (List.mem_map_of_mem hr))
  obtain ⟨⟨regions, b1⟩, h2⟩ := h2
  have huniq : ∀ {edges : List TopoEdge} {c d : List (List Point)}, ClippedBy m mask edges c → ClippedBy m mask edges d →
      c = d := by
    intro edges c d hc hd
    induction hc generalizing d with
    | nil => cases hd; rfl
    | cons h1 _ ih =>
      cases hd with
      | cons h2 hr =>
        rw [h1] at h2
        rw [Except.ok.inj h2, ih hr]
  obtain ⟨cs1, h3, h4, h5, rfl⟩ := clipBuilder_ok h1 h2
  obtain rfl := huniq h3 hcs
  obtain ⟨cs1', h3', h4', h5', rfl⟩ := clipBuilder_ok h1' h2'
  obtain rfl := huniq h3' hcs'
  simp only at hclip
  rw [clip_intoTopology_eq h4' h5' (List.Perm.refl _)] at hclip
  have hfin : clipTopology m u mask = finishTopology (clippedPoints cs1 u) (clippedBuild cs1 u) := by
    unfold clipTopology
    rw [h1, ok_bind, h2, ok_bind]
    simp only
    rw [clip_intoTopology_eq h4 h5 (List.Perm.refl _)]
  -- the edges
  have hkeys : ∀ k ∈ newKeys cs1 u, k ∈ newKeys cs1' t := by
    intro k hk
    have hk := (mem_addKeys.mp hk).resolve_left (by simp)
    refine mem_addKeys.mpr (Or.inr ?_)
    rw [← plugKeys_renumber f] at hk
    obtain ⟨pc, h6, h7⟩ := List.mem_filterMap.mp hk
    have h6 := (triedPieces_renumber (g := g) hc hin (List.Perm.refl _)).mem_iff.mpr h6
    refine List.mem_filterMap.mpr ⟨pc, ?_, h7⟩
    obtain ⟨r, h8, h9⟩ := List.mem_flatMap.mp h6
    exact List.mem_flatMap.mpr ⟨r, hsub.subset h8, h9⟩
  have hnd : ((clippedEdges cs1 u).map (renumberPieceEdge f)).Nodup := by
    rw [List.nodup_map_iff_inj_on (clippedEdges_nodup cs1 u)]
    intro a ha c hc hac
    match a, c with
    | .kept i, .kept j =>
      rw [hf i (clippedEdges_lt ha i rfl) j (clippedEdges_lt hc j rfl) (PieceEdge.kept.inj hac)]
    | .kept i, .plug p q => cases hac
    | .plug p q, .kept i => cases hac
    | .plug p q, .plug p' q' => exact hac
  have hvalid : ∀ {cs : List (List Point)} {v : Topology δ} {e : PieceEdge}, e ∈ clippedEdges cs v → ValidEdge cs (newKeys cs v) e := by
    intro cs v e he
    rcases List.mem_append.mp he with he | he
    · obtain ⟨⟨c, i⟩, hx, rfl⟩ := List.mem_map.mp he
      obtain ⟨hx, hne⟩ := List.mem_filter.mp hx
      exact ⟨c, List.mem_zipIdx_iff_getElem?.mp hx, by simpa using hne⟩
    · obtain ⟨k, hk, rfl⟩ := List.mem_map.mp he
      exact hk
  have hvalid' : ∀ {e : PieceEdge}, ValidEdge cs1 (newKeys cs1 u) e → ValidEdge cs1' (newKeys cs1' t) (renumberPieceEdge f e) := by
    intro e he
    cases e with
    | kept i =>
      obtain ⟨c, hci, hne⟩ := he
      exact ⟨c, hc i c hci, hne⟩
    | plug p q => exact hkeys _ he
  have hmem : ∀ e ∈ (clippedEdges cs1 u).map (renumberPieceEdge f), e ∈ clippedEdges cs1' t := by
    intro e he
    obtain ⟨e0, he0, rfl⟩ := List.mem_map.mp he
    exact List.mem_of_getElem? (clippedEdges_place (hvalid' (hvalid he0)))
  obtain ⟨F, hF, hFk⟩ := exists_embedding hnd hmem
  rw [List.length_map] at hF
  have hFk : ∀ k e, (clippedEdges cs1 u)[k]? = some e → (clippedEdges cs1' t)[F k]? = some (renumberPieceEdge f e) :=
    fun k e hk => hFk k _ (by rw [List.getElem?_map, hk]; rfl)
  have hPl : (clippedPoints cs1 u).length = (clippedEdges cs1 u).length := by rw [← clippedEdges_points, List.length_map]
  have hplace : ∀ e, ValidEdge cs1 (newKeys cs1 u) e →
      place cs1' (cs1'.filter (· ≠ [])).length (newKeys cs1' t) (renumberPieceEdge f e) =
        F (place cs1 (cs1.filter (· ≠ [])).length (newKeys cs1 u) e) := by
    intro e he
    have a1 := hFk _ _ (clippedEdges_place he)
    have a2 := clippedEdges_place (hvalid' he)
    obtain ⟨b1, b2⟩ := List.getElem?_eq_some_iff.mp a1
    obtain ⟨c1, c2⟩ := List.getElem?_eq_some_iff.mp a2
    exact (List.Nodup.getElem_inj_iff (clippedEdges_nodup cs1' t)).mp (c2.trans b2.symm)
  have hB : ((clippedBuild cs1 u).map (renumberBuild F)).Sublist (clippedBuild cs1' t) := by
    unfold clippedBuild
    have hr : ((clippedRegions cs1 u.regions).map (renumberClipped f)).Sublist (clippedRegions cs1' t.regions) := by
      rw [← clippedRegions_map (g := g) hc hin]
      exact (hsub.filter _).map _
    refine List.Sublist.trans (sublist_of_eq ?_) (hr.map _)
    rw [List.map_map, List.map_map]
    apply List.map_congr_left
    intro r hr
    have hde : ∀ pc ∈ r.outer.flatten ++ r.inner.flatten,
        (⟨F (toDE cs1 (cs1.filter (· ≠ [])).length (newKeys cs1 u) pc).edge,
            (toDE cs1 (cs1.filter (· ≠ [])).length (newKeys cs1 u) pc).direction⟩ : DirectedEdge) =
          toDE cs1' (cs1'.filter (· ≠ [])).length (newKeys cs1' t) (renumberPiece f pc) := by
      intro pc hpc
      have := hplace pc.edge (valid_of_mem (List.mem_flatMap.mpr ⟨r, hr, hpc⟩))
      simp only [toDE, renumberPiece]
      rw [this]
    simp only [Function.comp, toBuild, renumberClipped, renumberBuild, List.map_map]
    congr 1
    · apply List.map_congr_left
      intro ps hps
      simp only [Function.comp, List.map_map]
      apply List.map_congr_left
      intro pc hpc
      exact hde pc (by simp only [List.mem_append, List.mem_flatten]; exact Or.inl ⟨ps, hps, hpc⟩)
    · apply List.map_congr_left
      intro ps hps
      simp only [Function.comp, List.map_map]
      apply List.map_congr_left
      intro pc hpc
      exact hde pc (by simp only [List.mem_append, List.mem_flatten]; exact Or.inr ⟨ps, hps, hpc⟩)
  obtain ⟨u', g', h6, h7⟩ := finishTopology_part (P := clippedPoints cs1 u) (by rw [hPl]; exact hF) (by
      intro k c hk
      rw [← clippedEdges_points, List.getElem?_map] at hk ⊢
      obtain ⟨e, he, rfl⟩ := Option.map_eq_some_iff.mp hk
      rw [hFk k e he]
      simp only [Option.map_some]
      rw [points_renumber hc (clippedEdges_lt (List.mem_of_getElem? he))]) hB (clippedBuild_inBounds cs1 u) hclip
  exact ⟨u', F, g', by rw [hfin, h6], h7⟩

end TopoGeo
