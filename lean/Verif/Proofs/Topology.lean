import Verif.Proofs.Geo
import Verif.Spec.Topology
import Mathlib.Data.List.Forall2
/-!
# Helper lemmas about the topology builder
-/

namespace TopoGeo

open Spec

/-! ## Points -/

theorem Point.lt_def (a b : Point) : a < b ↔ a.x.toNat < b.x.toNat ∨ (a.x = b.x ∧ a.y.toNat < b.y.toNat) := by
  show (a.x < b.x ∨ (a.x = b.x ∧ a.y < b.y)) ↔ _
  simp [UInt32.lt_iff_toNat_lt]

theorem Point.eq_of_toNat {a b : Point} (h1 : a.x.toNat = b.x.toNat) (h2 : a.y.toNat = b.y.toNat) : a = b := by
  cases a; cases b
  simp only at h1 h2
  rw [UInt32.toNat_inj] at h1 h2
  rw [h1, h2]

theorem Point.lt_irrefl (a : Point) : ¬ a < a := by
  rw [Point.lt_def]; omega

theorem Point.lt_trans {a b c : Point} (h1 : a < b) (h2 : b < c) : a < c := by
  rw [Point.lt_def] at *
  simp only [← UInt32.toNat_inj] at *
  omega

theorem Point.lt_asymm {a b : Point} (h : a < b) : ¬ b < a :=
  fun h' => Point.lt_irrefl a (Point.lt_trans h h')

theorem Point.trichotomy (a b : Point) : a < b ∨ a = b ∨ b < a := by
  by_cases h : a = b
  · exact Or.inr (Or.inl h)
  · have : ¬ (a.x.toNat = b.x.toNat ∧ a.y.toNat = b.y.toNat) :=
      fun ⟨h1, h2⟩ => h (Point.eq_of_toNat h1 h2)
    rw [Point.lt_def, Point.lt_def]
    simp only [← UInt32.toNat_inj]
    omega

/-! ## Areas as the builder sees them -/

theorem ring_area2_ok {m : Build} {r : Ring} {a : Nat} (h : r.area2 m = .ok a) :
    a = 0 ↔ ringArea r = 0 := by
  simp only [Ring.area2, bind_ok] at h
  obtain ⟨x, hx, h⟩ := h
  obtain rfl := Except.ok.inj h
  rw [ring_area2AndWindingOrder_ok hx]
  simp [ringArea]

theorem ring_area2_release (r : Ring) : ∃ a, r.area2 .release = .ok a := by
  rw [Ring.area2, ring_area2AndWindingOrder_release, ok_bind]; exact ⟨_, rfl⟩

theorem ring_area2_error {m : Build} {r : Ring} {e : Panic} (h : r.area2 m = .error e) :
    m = .debug ∧ e = .overflow := by
  simp only [Ring.area2, bind_error] at h
  rcases h with h | ⟨x, _, h⟩
  · exact ring_area2AndWindingOrder_error h
  · cases h

theorem path_windingOrder_ok {m : Build} {ps : List Point} {w : WindingOrder}
    (h : (Ring.points ps).windingOrder m = .ok w) : w = .clockwise ↔ 0 ≤ pathArea ps := by
  simp only [Ring.windingOrder, bind_ok] at h
  obtain ⟨x, hx, h⟩ := h
  obtain rfl := Except.ok.inj h
  rw [ring_area2AndWindingOrder_ok hx]
  simp only [pathArea, ringShoelace]
  by_cases h : 0 ≤ wrap64 (shoelace ps) <;> simp [h]

theorem ring_windingOrder_error {m : Build} {r : Ring} {e : Panic} (h : r.windingOrder m = .error e) :
    m = .debug ∧ e = .overflow := by
  simp only [Ring.windingOrder, bind_error] at h
  rcases h with h | ⟨x, _, h⟩
  · exact ring_area2AndWindingOrder_error h
  · cases h

/-- A computation that can fail only with an overflow in a checked build. -/
def OnlyOverflow {α : Type} (m : Build) (x : R α) : Prop :=
  ∀ e, x = .error e → m = .debug ∧ e = .overflow

theorem OnlyOverflow.release {α : Type} {x : R α} (h : OnlyOverflow .release x) : ∃ a, x = .ok a := by
  cases hx : x with
  | ok a => exact ⟨a, rfl⟩
  | error e => exact absurd (h e hx).1 (by decide)

theorem OnlyOverflow.bind {α β : Type} {m : Build} {x : R α} {f : α → R β}
    (h1 : OnlyOverflow m x) (h2 : ∀ a, x = .ok a → OnlyOverflow m (f a)) : OnlyOverflow m (x >>= f) := by
  intro e he
  rw [bind_error] at he
  rcases he with he | ⟨a, ha, he⟩
  · exact h1 e he
  · exact h2 a ha e he

theorem OnlyOverflow.ok {α : Type} {m : Build} (a : α) : OnlyOverflow m (.ok a : R α) := by
  intro e he; cases he

/-! ## Canonical edges -/

theorem isZeroLength_iff (e : List Point) : isZeroLength e = true ↔ ZeroLength e := by
  unfold isZeroLength ZeroLength
  match e with
  | [] => simp
  | [_] => simp
  | [p, q] =>
    simp
    constructor
    · exact fun h => h.symm
    · exact fun h => h.symm
  | _ :: _ :: _ :: _ => simp

theorem canonicalize_ok {m : Build} {e : List Point} {x : List Point × Direction}
    (h : canonicalize m e = .ok x) :
    x = (stored e, if storedForward e then .forward else .backward) := by
  unfold canonicalize at h
  unfold stored storedForward
  split at h
  · rename_i p q hp hq
    simp only [hp, hq]
    split at h
    · rename_i hlt
      rw [if_pos (Or.inl hlt), if_pos (Or.inl hlt)]
      exact (Except.ok.inj h).symm
    · rename_i hlt
      split at h
      · rename_i heq
        subst heq
        rw [bind_ok] at h
        obtain ⟨w, hw, h⟩ := h
        have := path_windingOrder_ok hw
        split at h
        · rename_i hc
          have h0 := this.mp hc
          rw [if_pos (Or.inr ⟨rfl, h0⟩), if_pos (Or.inr ⟨rfl, h0⟩)]
          exact (Except.ok.inj h).symm
        · rename_i hc
          have hn : ¬ (p < p ∨ p = p ∧ 0 ≤ pathArea e) := by
            rintro (h' | ⟨_, h'⟩)
            · exact hlt h'
            · exact hc (this.mpr h')
          rw [if_neg hn, if_neg hn]
          exact (Except.ok.inj h).symm
      · rename_i hne
        have hn : ¬ (p < q ∨ p = q ∧ 0 ≤ pathArea e) := by
          rintro (h' | ⟨h', _⟩)
          · exact hlt h'
          · exact hne h'
        rw [if_neg hn, if_neg hn]
        exact (Except.ok.inj h).symm
  · cases h

theorem canonicalize_onlyOverflow (m : Build) {e : List Point} (he : e ≠ []) :
    OnlyOverflow m (canonicalize m e) := by
  unfold canonicalize
  rw [List.head?_eq_some_head he, List.getLast?_eq_some_getLast he]
  simp only
  split
  · exact OnlyOverflow.ok _
  · split
    · refine OnlyOverflow.bind (fun _ h => ring_windingOrder_error h) ?_
      intro w _
      split <;> exact OnlyOverflow.ok _
    · exact OnlyOverflow.ok _

/-! ## The edge map -/

theorem mapGet_append {κ : Type} [DecidableEq κ] (k : κ) (a b : List (κ × Nat)) :
    mapGet k (a ++ b) = (mapGet k a).or (mapGet k b) := by
  induction a with
  | nil => simp [mapGet]
  | cons x a ih =>
    obtain ⟨k', v⟩ := x
    simp only [List.cons_append, mapGet]
    split
    · simp
    · exact ih

/-- The position of `k` among the keys. -/
def keyIdx {κ : Type} [DecidableEq κ] : List κ → κ → Nat
  | [], _ => 0
  | a :: l, k => if k = a then 0 else keyIdx l k + 1

theorem keyIdx_append_of_mem {κ : Type} [DecidableEq κ] {ks : List κ} {k : κ} (t : List κ) (h : k ∈ ks) :
    keyIdx (ks ++ t) k = keyIdx ks k := by
  induction ks with
  | nil => cases h
  | cons a ks ih =>
    simp only [List.cons_append, keyIdx]
    split
    · rfl
    · rename_i hne
      rw [ih (by simpa [hne] using h)]

theorem keyIdx_snoc {κ : Type} [DecidableEq κ] {ks : List κ} {k : κ} (h : k ∉ ks) :
    keyIdx (ks ++ [k]) k = ks.length := by
  induction ks with
  | nil => simp [keyIdx]
  | cons a ks ih =>
    simp only [List.mem_cons, not_or] at h
    simp [keyIdx, h.1, ih h.2]

theorem getElem?_keyIdx {κ : Type} [DecidableEq κ] {ks : List κ} {k : κ} (h : k ∈ ks) :
    ks[keyIdx ks k]? = some k := by
  induction ks with
  | nil => cases h
  | cons a ks ih =>
    simp only [keyIdx]
    split
    · rename_i h'; simp [h']
    · rename_i hne
      rw [List.getElem?_cons_succ]
      exact ih (by simpa [hne] using h)

theorem keyIdx_lt {κ : Type} [DecidableEq κ] {ks : List κ} {k : κ} (h : k ∈ ks) :
    keyIdx ks k < ks.length := (List.getElem?_eq_some_iff.mp (getElem?_keyIdx h)).1

theorem mapGet_zipIdx {κ : Type} [DecidableEq κ] (k : κ) (ks : List κ) (n : Nat) :
    mapGet k (ks.zipIdx n) = if k ∈ ks then some (n + keyIdx ks k) else none := by
  induction ks generalizing n with
  | nil => simp [mapGet]
  | cons a ks ih =>
    simp only [List.zipIdx_cons, mapGet, ih]
    by_cases h : k = a
    · subst h; simp [keyIdx]
    · have h' : ¬ (a = k) := fun x => h x.symm
      simp only [h, if_false, List.mem_cons, false_or]
      simp only [keyIdx, h, if_false]
      split
      · congr 1; omega
      · rfl

/-- The keys after looking up or inserting `k`. -/
def addKey {κ : Type} [DecidableEq κ] (ks : List κ) (k : κ) : List κ :=
  if k ∈ ks then ks else ks ++ [k]

/-- The keys after looking up or inserting all of `l`. -/
def addKeys {κ : Type} [DecidableEq κ] (ks l : List κ) : List κ := l.foldl addKey ks

theorem mapEntry_zipIdx {κ : Type} [DecidableEq κ] (ks : List κ) (k : κ) :
    mapEntry (ks.zipIdx).length k ks.zipIdx = (keyIdx (addKey ks k) k, (addKey ks k).zipIdx) := by
  unfold mapEntry addKey
  rw [mapGet_zipIdx]
  split
  · rename_i id h
    split at h
    · rename_i hm; simp [hm] at h ⊢; exact h.symm
    · cases h
  · rename_i h
    split at h
    · cases h
    · rename_i hm
      simp only [hm, if_false, List.length_zipIdx, List.zipIdx_append]
      rw [keyIdx_snoc hm]
      simp

theorem addKey_prefix {κ : Type} [DecidableEq κ] (ks : List κ) (k : κ) : ks <+: addKey ks k := by
  unfold addKey; split
  · exact List.prefix_rfl
  · exact List.prefix_append _ _

theorem addKeys_prefix {κ : Type} [DecidableEq κ] (ks l : List κ) : ks <+: addKeys ks l := by
  induction l generalizing ks with
  | nil => exact List.prefix_rfl
  | cons k l ih => exact (addKey_prefix ks k).trans (ih (addKey ks k))

theorem mem_addKey {κ : Type} [DecidableEq κ] {ks : List κ} {k x : κ} :
    x ∈ addKey ks k ↔ x ∈ ks ∨ x = k := by
  unfold addKey; split <;> simp_all

theorem mem_addKeys {κ : Type} [DecidableEq κ] {ks l : List κ} {x : κ} :
    x ∈ addKeys ks l ↔ x ∈ ks ∨ x ∈ l := by
  induction l generalizing ks with
  | nil => simp [addKeys]
  | cons k l ih =>
    show x ∈ addKeys (addKey ks k) l ↔ _
    rw [ih, mem_addKey, List.mem_cons]; constructor
    · rintro ((h | h) | h) <;> simp [h]
    · rintro (h | h | h) <;> simp [h]

theorem addKeys_append {κ : Type} [DecidableEq κ] (ks a b : List κ) :
    addKeys ks (a ++ b) = addKeys (addKeys ks a) b := by
  simp [addKeys]

theorem nodup_addKey {κ : Type} [DecidableEq κ] {ks : List κ} {k : κ} (h : ks.Nodup) :
    (addKey ks k).Nodup := by
  unfold addKey; split
  · exact h
  · rename_i hk
    rw [List.nodup_append]
    refine ⟨h, by simp, ?_⟩
    intro a ha b hb
    simp at hb
    subst hb
    rintro rfl
    exact hk ha

theorem nodup_addKeys {κ : Type} [DecidableEq κ] {ks l : List κ} (h : ks.Nodup) :
    (addKeys ks l).Nodup := by
  induction l generalizing ks with
  | nil => exact h
  | cons k l ih => exact ih (nodup_addKey h)

theorem addKeys_eq {κ : Type} [DecidableEq κ] (ks l : List κ) :
    addKeys ks l = ks ++ (firstOccurrences l).filter (· ∉ ks) := by
  induction l generalizing ks with
  | nil => simp [addKeys, firstOccurrences]
  | cons k l ih =>
    show addKeys (addKey ks k) l = _
    rw [ih]
    unfold addKey
    rw [show firstOccurrences (k :: l) = k :: (firstOccurrences l).filter (· ≠ k) from rfl]
    by_cases hk : k ∈ ks
    · simp only [hk, if_true, List.filter_cons, not_true_eq_false, decide_false, List.filter_filter]
      congr 1
      apply List.filter_congr
      intro x _
      by_cases hx : x ∈ ks
      · simp [hx]
      · have : x ≠ k := fun h => hx (h ▸ hk)
        simp [hx, this]
    · simp only [hk, if_false, List.append_assoc, List.filter_cons, not_false_eq_true, decide_true,
        if_true, List.filter_filter, List.cons_append, List.nil_append]
      congr 2
      apply List.filter_congr
      intro x _
      simp [not_or, and_comm, Bool.and_comm]

theorem idxOf_prefix {κ : Type} [DecidableEq κ] {ks ks' : List κ} {k : κ} (h : ks <+: ks') (hk : k ∈ ks) :
    keyIdx ks' k = keyIdx ks k := by
  obtain ⟨t, rfl⟩ := h
  exact keyIdx_append_of_mem t hk

/-- The directed edge that stands for path `e` when the stored paths are
`ks`. -/
def directedFor (ks : List (List Point)) (e : List Point) : DirectedEdge :=
  ⟨keyIdx ks (stored e), if storedForward e then .forward else .backward⟩

theorem directedFor_prefix {ks ks' : List (List Point)} {e : List Point} (h : ks <+: ks')
    (he : stored e ∈ ks) : directedFor ks' e = directedFor ks e := by
  unfold directedFor; rw [idxOf_prefix h he]

/-! ## Building -/

theorem buildDirectedEdge_ok {m : Build} {ks : List (List Point)} {e : Edge}
    {o : Option DirectedEdge} {es' : EdgeMap}
    (h : buildDirectedEdge m ks.zipIdx e = .ok (o, es')) :
    (ZeroLength e ∧ o = none ∧ es' = ks.zipIdx) ∨
    (¬ ZeroLength e ∧ o = some (directedFor (addKey ks (stored e)) e) ∧
      es' = (addKey ks (stored e)).zipIdx) := by
  unfold buildDirectedEdge at h
  split at h
  · rename_i hz
    left
    obtain ⟨rfl, rfl⟩ := Prod.mk.inj (Except.ok.inj h)
    exact ⟨(isZeroLength_iff e).mp hz, rfl, rfl⟩
  · rename_i hz
    right
    rw [bind_ok] at h
    obtain ⟨x, hx, h⟩ := h
    have := canonicalize_ok hx
    subst this
    simp only [mapEntry_zipIdx] at h
    obtain ⟨rfl, rfl⟩ := Prod.mk.inj (Except.ok.inj h)
    exact ⟨fun hz' => hz ((isZeroLength_iff e).mpr hz'), rfl, rfl⟩

theorem buildDirectedEdge_onlyOverflow (m : Build) (es : EdgeMap) (e : Edge) :
    OnlyOverflow m (buildDirectedEdge m es e) := by
  unfold buildDirectedEdge
  split
  · exact OnlyOverflow.ok _
  · rename_i hz
    refine OnlyOverflow.bind (canonicalize_onlyOverflow m ?_) (fun _ _ => OnlyOverflow.ok _)
    rintro rfl; exact hz rfl

/-- The stored forms of the non-degenerate paths among `es`. -/
def storedPaths (es : List (List Point)) : List (List Point) :=
  (es.filter fun e => ¬ ZeroLength e).map stored

theorem buildDirectedEdges_ok {m : Build} {edges : List Edge} {ks : List (List Point)}
    {ds : List DirectedEdge} {es' : EdgeMap}
    (h : buildDirectedEdges m ks.zipIdx edges = .ok (ds, es')) :
    es' = (addKeys ks (storedPaths edges)).zipIdx ∧
    ds = (edges.filter fun e => ¬ ZeroLength e).map (directedFor (addKeys ks (storedPaths edges))) := by
  induction edges generalizing ks ds es' with
  | nil =>
    obtain ⟨rfl, rfl⟩ := Prod.mk.inj (Except.ok.inj h)
    exact ⟨rfl, rfl⟩
  | cons e rest ih =>
    simp only [buildDirectedEdges, bind_ok] at h
    obtain ⟨⟨o, es1⟩, h1, ⟨ds2, es2⟩, h2, h⟩ := h
    obtain ⟨rfl, rfl⟩ := Prod.mk.inj (Except.ok.inj h)
    simp only at h2
    rcases buildDirectedEdge_ok h1 with ⟨hz, rfl, rfl⟩ | ⟨hz, rfl, rfl⟩
    · obtain ⟨h3, h4⟩ := ih h2
      have hs : storedPaths (e :: rest) = storedPaths rest := by simp [storedPaths, hz]
      rw [hs]
      refine ⟨h3, ?_⟩
      simp [hz, h4]
    · obtain ⟨h3, h4⟩ := ih h2
      have hs : storedPaths (e :: rest) = stored e :: storedPaths rest := by simp [storedPaths, hz]
      rw [hs]
      refine ⟨h3, ?_⟩
      simp only [h4, Option.toList_some, List.singleton_append, hz, not_false_eq_true, decide_true,
        List.filter_cons_of_pos, List.map_cons]
      show _ = directedFor (addKeys (addKey ks (stored e)) (storedPaths rest)) e :: List.map
        (directedFor (addKeys (addKey ks (stored e)) (storedPaths rest))) _
      rw [directedFor_prefix (e := e) (addKeys_prefix _ _) (mem_addKey.mpr (Or.inr rfl))]

theorem buildDirectedEdges_onlyOverflow (m : Build) (edges : List Edge) (es : EdgeMap) :
    OnlyOverflow m (buildDirectedEdges m es edges) := by
  induction edges generalizing es with
  | nil => exact OnlyOverflow.ok _
  | cons e rest ih =>
    refine OnlyOverflow.bind (buildDirectedEdge_onlyOverflow m es e) ?_
    rintro ⟨o, es1⟩ _
    refine OnlyOverflow.bind (ih es1) ?_
    rintro ⟨ds, es2⟩ _
    exact OnlyOverflow.ok _

theorem getEdges_points (ps : List Point) : (Ring.points ps).getEdges = pairs ps := by
  unfold Ring.getEdges
  induction ps with
  | nil => rfl
  | cons p t ih =>
    cases t with
    | nil => rfl
    | cons q t =>
      simp only [tupleWindows, List.map_cons, pairs] at ih ⊢
      rw [ih]

theorem ringPaths_eq (r : Ring) : ringPaths r = r.getEdges.filter fun e => ¬ ZeroLength e := by
  cases r with
  | points ps => rw [getEdges_points]; rfl
  | edges es => rfl

/-- The stored paths of several rings. -/
def ringsStored (rs : List (List (List Point))) : List (List Point) := rs.flatten.map stored

theorem buildRing_ok {m : Build} {ks : List (List Point)} {r : Ring}
    {o : Option BuildRing} {es' : EdgeMap} (h : buildRing m ks.zipIdx r = .ok (o, es')) :
    (ringArea r = 0 ∧ o = none ∧ es' = ks.zipIdx) ∨
    (ringArea r ≠ 0 ∧ o = some ((ringPaths r).map (directedFor (addKeys ks ((ringPaths r).map stored)))) ∧
      es' = (addKeys ks ((ringPaths r).map stored)).zipIdx) := by
  simp only [buildRing, bind_ok] at h
  obtain ⟨a, ha, h⟩ := h
  have h0 := ring_area2_ok ha
  split at h
  · rename_i hz
    obtain ⟨rfl, rfl⟩ := Prod.mk.inj (Except.ok.inj h)
    exact Or.inl ⟨h0.mp hz, rfl, rfl⟩
  · rename_i hz
    rw [bind_ok] at h
    obtain ⟨⟨ds, es1⟩, h1, h⟩ := h
    obtain ⟨rfl, rfl⟩ := Prod.mk.inj (Except.ok.inj h)
    obtain ⟨h2, h3⟩ := buildDirectedEdges_ok h1
    right
    have : storedPaths r.getEdges = (ringPaths r).map stored := by rw [ringPaths_eq]; rfl
    rw [this, ← ringPaths_eq] at h3
    rw [this] at h2
    exact ⟨fun hh => hz (h0.mpr hh), by rw [h3], h2⟩

theorem buildRing_onlyOverflow (m : Build) (r : Ring) (es : EdgeMap) :
    OnlyOverflow m (buildRing m es r) := by
  refine OnlyOverflow.bind (fun _ h => ring_area2_error h) ?_
  intro a _
  split
  · exact OnlyOverflow.ok _
  · refine OnlyOverflow.bind (buildDirectedEdges_onlyOverflow m _ es) ?_
    rintro ⟨ds, es2⟩ _
    exact OnlyOverflow.ok _

theorem keptRings_cons (r : Ring) (rs : List Ring) :
    keptRings (r :: rs) = if ringArea r ≠ 0 then r :: keptRings rs else keptRings rs := by
  simp [keptRings, List.filter_cons]

theorem buildRings_ok {m : Build} {rs : List Ring} {ks : List (List Point)}
    {out : List BuildRing} {es' : EdgeMap} (h : buildRings m ks.zipIdx rs = .ok (out, es')) :
    let paths := (keptRings rs).map ringPaths
    es' = (addKeys ks (ringsStored paths)).zipIdx ∧
    out = paths.map (fun p => p.map (directedFor (addKeys ks (ringsStored paths)))) := by
  induction rs generalizing ks out es' with
  | nil =>
    obtain ⟨rfl, rfl⟩ := Prod.mk.inj (Except.ok.inj h)
    exact ⟨rfl, rfl⟩
  | cons r rest ih =>
    simp only [buildRings, bind_ok] at h
    obtain ⟨⟨o, es1⟩, h1, ⟨ds2, es2⟩, h2, h⟩ := h
    obtain ⟨rfl, rfl⟩ := Prod.mk.inj (Except.ok.inj h)
    simp only at h2
    rw [keptRings_cons]
    rcases buildRing_ok h1 with ⟨hz, rfl, rfl⟩ | ⟨hz, rfl, rfl⟩
    · obtain ⟨h3, h4⟩ := ih h2
      simp only [hz, ne_eq, not_true_eq_false, if_false]
      exact ⟨h3, by simpa using h4⟩
    · obtain ⟨h3, h4⟩ := ih h2
      simp only [hz, ne_eq, not_false_eq_true, if_true, List.map_cons]
      have hs : ∀ l, ringsStored (ringPaths r :: l) = (ringPaths r).map stored ++ ringsStored l := by
        intro l; simp [ringsStored]
      rw [hs, addKeys_append]
      refine ⟨h3, ?_⟩
      rw [h4]
      simp only [Option.toList_some, List.singleton_append, List.cons.injEq, and_true]
      apply List.map_congr_left
      intro e he
      exact (directedFor_prefix (e := e) (addKeys_prefix _ _)
        (mem_addKeys.mpr (Or.inr (List.mem_map_of_mem he)))).symm

theorem buildRings_onlyOverflow (m : Build) (rs : List Ring) (es : EdgeMap) :
    OnlyOverflow m (buildRings m es rs) := by
  induction rs generalizing es with
  | nil => exact OnlyOverflow.ok _
  | cons r rest ih =>
    refine OnlyOverflow.bind (buildRing_onlyOverflow m r es) ?_
    rintro ⟨o, es1⟩ _
    refine OnlyOverflow.bind (ih es1) ?_
    rintro ⟨ds, es2⟩ _
    exact OnlyOverflow.ok _

/-- The build region for a kept region when the stored paths are `ks`. -/
def toBuildRegion {δ : Type} (ks : List (List Point)) (k : KeptRegion δ) : BuildRegion δ :=
  ⟨k.data, k.outer.map (fun p => p.map (directedFor ks)), k.inner.map (fun p => p.map (directedFor ks))⟩

theorem keptRegions_cons {δ : Type} (r : Region δ) (rs : List (Region δ)) :
    keptRegions (r :: rs) = (if keptRings r.outerRings ≠ [] then
      [⟨r.data, (keptRings r.outerRings).map ringPaths, (keptRings r.innerRings).map ringPaths⟩]
      else []) ++ keptRegions rs := by
  by_cases h : keptRings r.outerRings = [] <;> simp [keptRegions, List.filter_cons, h]

theorem allPaths_cons {δ : Type} (r : Region δ) (rs : List (Region δ)) :
    allPaths (r :: rs) = (if keptRings r.outerRings ≠ [] then
      ((keptRings r.outerRings).map ringPaths).flatten ++ ((keptRings r.innerRings).map ringPaths).flatten
      else []) ++ allPaths rs := by
  unfold allPaths
  rw [keptRegions_cons]
  by_cases h : keptRings r.outerRings = [] <;> simp [h]

theorem addRegion_ok {δ : Type} {m : Build} {b b' : TopologyBuilder δ} {r : Region δ} {ks : List (List Point)}
    (hks : b.edges = ks.zipIdx) (h : b.addRegion m r = .ok b') :
    b'.edges = (addKeys ks ((allPaths [r]).map stored)).zipIdx ∧
    b'.regions = b.regions ++ (keptRegions [r]).map
      (toBuildRegion (addKeys ks ((allPaths [r]).map stored))) := by
  simp only [TopologyBuilder.addRegion, bind_ok, hks] at h
  obtain ⟨⟨outer, es1⟩, h1, h⟩ := h
  obtain ⟨rfl, rfl⟩ := buildRings_ok h1
  rw [keptRegions_cons, allPaths_cons]
  have e1 : allPaths ([] : List (Region δ)) = [] := rfl
  have e2 : keptRegions ([] : List (Region δ)) = [] := rfl
  rw [e1, e2]
  by_cases ho : keptRings r.outerRings = []
  · simp only [ho, List.map_nil, List.length_nil, gt_iff_lt, lt_irrefl, if_false] at h
    obtain rfl := Except.ok.inj h
    simp [ho, ringsStored]
  · have hl : 0 < (keptRings r.outerRings).length := List.length_pos_iff.mpr ho
    simp only [List.length_map, gt_iff_lt, hl, if_true, bind_ok] at h
    obtain ⟨⟨inner, es2⟩, h2, h⟩ := h
    obtain rfl := Except.ok.inj h
    obtain ⟨rfl, rfl⟩ := buildRings_ok h2
    simp only [ho, ne_eq, not_false_eq_true, if_true, List.append_nil, List.map_append, addKeys_append]
    have hs : ∀ l : List (List (List Point)), l.flatten.map stored = ringsStored l := fun _ => rfl
    rw [hs, hs]
    refine ⟨rfl, ?_⟩
    simp only [List.map_cons, List.map_nil, toBuildRegion]
    congr 3
    apply List.map_congr_left
    intro p hp
    apply List.map_congr_left
    intro e he
    exact (directedFor_prefix (e := e) (addKeys_prefix _ _)
      (mem_addKeys.mpr (Or.inr (List.mem_map_of_mem (List.mem_flatten.mpr ⟨p, hp, he⟩))))).symm

theorem addRegion_onlyOverflow {δ : Type} (m : Build) (b : TopologyBuilder δ) (r : Region δ) :
    OnlyOverflow m (b.addRegion m r) := by
  refine OnlyOverflow.bind (buildRings_onlyOverflow m _ _) ?_
  rintro ⟨o, es1⟩ _
  simp only
  split
  · refine OnlyOverflow.bind (buildRings_onlyOverflow m _ _) ?_
    rintro ⟨ds, es2⟩ _
    exact OnlyOverflow.ok _
  · exact OnlyOverflow.ok _

theorem toBuildRegion_prefix {δ : Type} {ks ks' : List (List Point)} (h : ks <+: ks') {k : KeptRegion δ}
    (hk : ∀ e ∈ k.outer.flatten ++ k.inner.flatten, stored e ∈ ks) :
    toBuildRegion ks' k = toBuildRegion ks k := by
  unfold toBuildRegion
  congr 1 <;>
  · apply List.map_congr_left
    intro p hp
    apply List.map_congr_left
    intro e he
    refine directedFor_prefix h (hk e ?_)
    rw [List.mem_append, List.mem_flatten, List.mem_flatten]
    first
    | exact Or.inl ⟨p, hp, he⟩
    | exact Or.inr ⟨p, hp, he⟩

theorem mem_allPaths {δ : Type} {rs : List (Region δ)} {k : KeptRegion δ} (hk : k ∈ keptRegions rs)
    {e : List Point} (he : e ∈ k.outer.flatten ++ k.inner.flatten) : e ∈ allPaths rs :=
  List.mem_flatMap.mpr ⟨k, hk, he⟩

/-- All that `add_region` does, in one statement. -/
theorem addRegions_ok {δ : Type} {m : Build} {rs : List (Region δ)} {b b' : TopologyBuilder δ}
    {ks : List (List Point)} (hks : b.edges = ks.zipIdx) (h : b.addRegions m rs = .ok b') :
    b'.edges = (addKeys ks ((allPaths rs).map stored)).zipIdx ∧
    b'.regions = b.regions ++ (keptRegions rs).map
      (toBuildRegion (addKeys ks ((allPaths rs).map stored))) := by
  induction rs generalizing b ks with
  | nil =>
    obtain rfl := Except.ok.inj h
    exact ⟨hks, by simp [keptRegions]⟩
  | cons r rest ih =>
    simp only [TopologyBuilder.addRegions, bind_ok] at h
    obtain ⟨b1, h1, h⟩ := h
    obtain ⟨h2, h3⟩ := addRegion_ok hks h1
    obtain ⟨h4, h5⟩ := ih h2 h
    have hp : allPaths (r :: rest) = allPaths [r] ++ allPaths rest := by
      rw [allPaths_cons, allPaths_cons]
      simp [allPaths, keptRegions]
    have hk : keptRegions (r :: rest) = keptRegions [r] ++ keptRegions rest := by
      rw [keptRegions_cons, keptRegions_cons]
      simp [keptRegions]
    rw [hp, hk, List.map_append, addKeys_append]
    refine ⟨h4, ?_⟩
    rw [h5, h3, List.map_append, List.append_assoc]
    congr 2
    apply List.map_congr_left
    intro k hkm
    symm
    apply toBuildRegion_prefix (addKeys_prefix _ _)
    intro e he
    exact mem_addKeys.mpr (Or.inr (List.mem_map_of_mem (mem_allPaths hkm he)))

theorem addRegions_onlyOverflow {δ : Type} (m : Build) (rs : List (Region δ)) (b : TopologyBuilder δ) :
    OnlyOverflow m (b.addRegions m rs) := by
  induction rs generalizing b with
  | nil => exact OnlyOverflow.ok _
  | cons r rest ih =>
    exact OnlyOverflow.bind (addRegion_onlyOverflow m b r) (fun b1 _ => ih b1)

/-- The stored paths of a topology built from `rs`. -/
def keysOf {δ : Type} (rs : List (Region δ)) : List (List Point) :=
  firstOccurrences ((allPaths rs).map stored)

theorem addRegions_new_ok {δ : Type} {m : Build} {rs : List (Region δ)} {b : TopologyBuilder δ}
    (h : TopologyBuilder.new.addRegions m rs = .ok b) :
    b.edges = (keysOf rs).zipIdx ∧ b.regions = (keptRegions rs).map (toBuildRegion (keysOf rs)) := by
  have := addRegions_ok (ks := []) (by rfl) h
  have e : addKeys [] ((allPaths rs).map stored) = keysOf rs := by
    rw [addKeys_eq]; simp [keysOf]
  rw [e] at this
  simpa [TopologyBuilder.new] using this

theorem nodup_keysOf {δ : Type} (rs : List (Region δ)) : (keysOf rs).Nodup := by
  have e : addKeys [] ((allPaths rs).map stored) = keysOf rs := by
    rw [addKeys_eq]; simp [keysOf]
  rw [← e]
  exact nodup_addKeys List.nodup_nil

theorem mem_keysOf {δ : Type} {rs : List (Region δ)} {k : List Point} :
    k ∈ keysOf rs ↔ ∃ e ∈ allPaths rs, stored e = k := by
  have e : addKeys [] ((allPaths rs).map stored) = keysOf rs := by
    rw [addKeys_eq]; simp [keysOf]
  rw [← e, mem_addKeys]
  simp

/-! ## Placing edges by id -/

theorem placeEdges_ok {α : Type} {order : List (α × Nat)} {slots : List (Option α)}
    (hlt : ∀ x ∈ order, x.2 < slots.length) (hnd : (order.map Prod.snd).Nodup) :
    ∃ out, placeEdges slots order = .ok out ∧ out.length = slots.length ∧
      (∀ k i, (k, i) ∈ order → out[i]? = some (some k)) ∧
      (∀ i, (∀ k, (k, i) ∉ order) → out[i]? = slots[i]?) := by
  induction order generalizing slots with
  | nil => exact ⟨slots, rfl, rfl, by simp, by simp⟩
  | cons x rest ih =>
    obtain ⟨k, id⟩ := x
    have hid : id < slots.length := hlt (k, id) (by simp)
    rw [List.map_cons, List.nodup_cons] at hnd
    obtain ⟨out, h1, h2, h3, h4⟩ := ih (slots := slots.set id (some k))
      (by intro x hx; rw [List.length_set]; exact hlt x (by simp [hx])) hnd.2
    refine ⟨out, ?_, by simpa using h2, ?_, ?_⟩
    · simp only [placeEdges, vecSet, hid, if_true, ok_bind]; exact h1
    · intro k' i hk
      rw [List.mem_cons] at hk
      rcases hk with hk | hk
      · obtain ⟨rfl, rfl⟩ := Prod.mk.inj hk
        rw [h4 i (fun k' hk' => hnd.1 (List.mem_map.mpr ⟨(k', i), hk', rfl⟩))]
        simp [hid]
      · exact h3 k' i hk
    · intro i hi
      rw [h4 i (fun k' hk' => hi k' (by simp [hk']))]
      have : id ≠ i := fun h => hi k (by simp [h])
      simp [List.getElem?_set, this]

theorem expectAll_map_some {α : Type} (l : List α) : expectAll (l.map some) = .ok l := by
  induction l with
  | nil => rfl
  | cons a l ih => simp [expectAll, ih]

theorem placeEdges_perm {α : Type} {ks : List α} {order : List (α × Nat)} (hp : order.Perm ks.zipIdx) :
    placeEdges (List.replicate ks.length none) order = .ok (ks.map some) := by
  have hnd : (order.map Prod.snd).Nodup := by
    rw [(hp.map Prod.snd).nodup_iff, List.zipIdx_map_snd]
    exact List.nodup_range'
  have hmem : ∀ k i, (k, i) ∈ order ↔ ks[i]? = some k := by
    intro k i
    rw [hp.mem_iff, List.mem_zipIdx_iff_getElem?]
  obtain ⟨out, h1, h2, h3, h4⟩ := placeEdges_ok (order := order) (slots := List.replicate ks.length none)
    (by
      rintro ⟨k, i⟩ hx
      rw [hmem] at hx
      rw [List.length_replicate]
      exact (List.getElem?_eq_some_iff.mp hx).1) hnd
  rw [h1]
  congr 1
  apply List.ext_getElem?
  intro i
  rw [List.getElem?_map]
  by_cases hi : i < ks.length
  · have : (ks[i], i) ∈ order := (hmem _ _).mpr (List.getElem?_eq_getElem hi)
    rw [h3 _ _ this, List.getElem?_eq_getElem hi]; rfl
  · rw [List.getElem?_eq_none (by rw [h2, List.length_replicate]; omega),
      List.getElem?_eq_none (by omega)]
    rfl

/-! ## Attaching rings to edges -/

/-- Uses of edges, in traversal order. -/
abbrev Uses := List (RingPtr × Nat)

/-- `attachRing` and its outer loops, on a flat list of uses. -/
def attachAll (edges : List TopoEdge) : Uses → R (List TopoEdge)
  | [] => .ok edges
  | (rp, i) :: rest =>
    match edges[i]? with
    | none => .error .nullDeref
    | some e =>
      if e.ring0 = none then attachAll (edges.set i { e with ring0 := some rp }) rest
      else if e.ring1 = none then attachAll (edges.set i { e with ring1 := some rp }) rest
      else .error .assert

theorem attachAll_append (a b : Uses) (edges : List TopoEdge) :
    attachAll edges (a ++ b) = attachAll edges a >>= fun e => attachAll e b := by
  induction a generalizing edges with
  | nil => simp [attachAll]
  | cons x a ih =>
    obtain ⟨rp, i⟩ := x
    simp only [List.cons_append, attachAll]
    split
    · rfl
    · split
      · exact ih _
      · split
        · exact ih _
        · rfl

/-- The uses made by one ring. -/
def ringUses (rp : RingPtr) (ds : List DirectedEdge) : Uses := ds.map fun de => (rp, de.edge)

theorem attachRing_eq (rp : RingPtr) (ds : List DirectedEdge) (edges : List TopoEdge) :
    attachRing edges rp ds = attachAll edges (ringUses rp ds) := by
  induction ds generalizing edges with
  | nil => rfl
  | cons d ds ih =>
    simp only [attachRing, ringUses, List.map_cons, attachAll]
    cases edges[d.edge]? with
    | none => rfl
    | some e =>
      simp only
      split
      · exact ih _
      · split
        · exact ih _
        · rfl

/-- The uses made by the rings of one kind of one region. -/
def ringsUses (region : Nat) (inner : Bool) : Nat → List (List DirectedEdge) → Uses
  | _, [] => []
  | k, ds :: rest => ringUses ⟨region, inner, k⟩ ds ++ ringsUses region inner (k + 1) rest

theorem attachRings_eq (region : Nat) (inner : Bool) (rings : List TopoRing) (k : Nat)
    (edges : List TopoEdge) :
    attachRings edges region inner k rings =
      attachAll edges (ringsUses region inner k (rings.map (·.directedEdges))) := by
  induction rings generalizing k edges with
  | nil => rfl
  | cons r rings ih =>
    simp only [attachRings, List.map_cons, ringsUses, attachAll_append, attachRing_eq, ih]

/-- The uses made by all regions. -/
def regionsUses {δ : Type} : Nat → List (BuildRegion δ) → Uses
  | _, [] => []
  | n, r :: rest => ringsUses n false 0 r.outerRings ++ ringsUses n true 0 r.innerRings ++
      regionsUses (n + 1) rest

/-- A build region without its pointers. -/
def toTopoRegion {δ : Type} (r : BuildRegion δ) : TopoRegion δ :=
  ⟨r.data, r.outerRings.map (fun ds => ⟨ds, none⟩), r.innerRings.map (fun ds => ⟨ds, none⟩)⟩

theorem attachRegions_eq {δ : Type} (rs : List (BuildRegion δ)) (n : Nat) (edges : List TopoEdge) :
    attachRegions edges n (rs.map toTopoRegion) = attachAll edges (regionsUses n rs) := by
  induction rs generalizing n edges with
  | nil => rfl
  | cons r rs ih =>
    have e : ∀ l : List BuildRing, (l.map (fun ds => (⟨ds, none⟩ : TopoRing))).map (·.directedEdges) = l := by
      intro l; rw [List.map_map]; exact List.map_id l
    simp only [List.map_cons, attachRegions, regionsUses, attachAll_append, attachRings_eq, ih,
      toTopoRegion, e]
    cases attachAll edges (ringsUses n false 0 r.outerRings) <;> rfl

theorem buildRingsToTopoRings_eq (n : Nat) (rs : List BuildRing) :
    buildRingsToTopoRings n rs =
      if ∀ r ∈ rs, ∀ de ∈ r, de.edge < n then .ok (rs.map (fun ds => ⟨ds, none⟩)) else .error .index := by
  induction rs with
  | nil => simp [buildRingsToTopoRings]
  | cons r rs ih =>
    simp only [buildRingsToTopoRings, buildRingToTopoRing, ih]
    by_cases h1 : ∀ de ∈ r, de.edge < n
    · have : (r.all fun de => decide (de.edge < n)) = true := by simpa using h1
      simp only [this, if_true, ok_bind]
      by_cases h2 : ∀ r ∈ rs, ∀ de ∈ r, de.edge < n
      · rw [if_pos h2, if_pos]
        · rfl
        · intro r' hr'
          rw [List.mem_cons] at hr'
          rcases hr' with rfl | hr'
          · exact h1
          · exact h2 r' hr'
      · rw [if_neg h2, if_neg]
        · rfl
        · intro h; exact h2 fun r' hr' => h r' (by simp [hr'])
    · have : (r.all fun de => decide (de.edge < n)) = false := by
        rw [Bool.eq_false_iff]; intro h; exact h1 (by simpa using h)
      simp only [this, Bool.false_eq_true, if_false, error_bind]
      rw [if_neg]
      intro h; exact h1 (h r (by simp))

/-- All directed edges of a build region point to one of the `n` edges. -/
def InBounds {δ : Type} (n : Nat) (r : BuildRegion δ) : Prop :=
  ∀ ring ∈ r.outerRings ++ r.innerRings, ∀ de ∈ ring, de.edge < n

theorem buildRegionsToTopoRegions_ok {δ : Type} {n : Nat} {rs : List (BuildRegion δ)}
    (h : ∀ r ∈ rs, InBounds n r) : buildRegionsToTopoRegions n rs = .ok (rs.map toTopoRegion) := by
  induction rs with
  | nil => rfl
  | cons r rs ih =>
    have hr := h r (by simp)
    simp only [buildRegionsToTopoRegions, buildRingsToTopoRings_eq]
    rw [if_pos (fun x hx => hr x (by simp [hx])), if_pos (fun x hx => hr x (by simp [hx])),
      ih (fun r hr => h r (by simp [hr]))]
    rfl

theorem buildRegionsToTopoRegions_of_ok {δ : Type} {n : Nat} {rs : List (BuildRegion δ)} {x}
    (h : buildRegionsToTopoRegions n rs = .ok x) : ∀ r ∈ rs, InBounds n r := by
  induction rs generalizing x with
  | nil => simp
  | cons r rs ih =>
    simp only [buildRegionsToTopoRegions, buildRingsToTopoRings_eq, bind_ok] at h
    obtain ⟨a, ha, b, hb, c, hc, _⟩ := h
    intro r' hr'
    rw [List.mem_cons] at hr'
    rcases hr' with rfl | hr'
    · split at ha
      · split at hb
        · rename_i h1 h2
          intro ring hring
          rw [List.mem_append] at hring
          rcases hring with hring | hring
          · exact h1 ring hring
          · exact h2 ring hring
        · cases hb
      · cases ha
    · exact ih hc r' hr'

/-- The ring pointers recorded for edge `i`. -/
def usersOf (uses : Uses) (i : Nat) : List RingPtr := (uses.filter (·.2 = i)).map (·.1)

/-- The state of the edges after some uses. -/
def edgesAfter (points : List (List Point)) (uses : Uses) : List TopoEdge :=
  points.zipIdx.map fun x => ⟨x.1, (usersOf uses x.2)[0]?, (usersOf uses x.2)[1]?⟩

theorem usersOf_append (a b : Uses) (i : Nat) : usersOf (a ++ b) i = usersOf a i ++ usersOf b i := by
  simp [usersOf]

theorem usersOf_single (rp : RingPtr) (j i : Nat) :
    usersOf [(rp, j)] i = if j = i then [rp] else [] := by
  unfold usersOf; by_cases h : j = i <;> simp [h]

theorem getElem?_edgesAfter (points : List (List Point)) (uses : Uses) (i : Nat) :
    (edgesAfter points uses)[i]? =
      (points[i]?).map fun ps => ⟨ps, (usersOf uses i)[0]?, (usersOf uses i)[1]?⟩ := by
  unfold edgesAfter
  rw [List.getElem?_map, List.getElem?_zipIdx]
  cases points[i]? <;> simp

theorem edgesAfter_snoc {points : List (List Point)} {done : Uses} {rp : RingPtr} {i : Nat} {e : TopoEdge}
    (he : (edgesAfter points (done ++ [(rp, i)]))[i]? = some e) :
    (edgesAfter points done).set i e = edgesAfter points (done ++ [(rp, i)]) := by
  apply List.ext_getElem?
  intro j
  rw [List.getElem?_set]
  by_cases h : i = j
  · subst h
    have hl : i < (edgesAfter points done).length := by
      have := (List.getElem?_eq_some_iff.mp he).1
      simpa [edgesAfter] using this
    simp [hl, he]
  · simp only [h, if_false]
    rw [getElem?_edgesAfter, getElem?_edgesAfter, usersOf_append, usersOf_single, if_neg h, List.append_nil]

open Classical in
theorem attachAll_eq {points : List (List Point)} (uses done : Uses)
    (hb : ∀ u ∈ uses, u.2 < points.length)
    (hd : ∀ i, (usersOf done i).length ≤ 2) :
    attachAll (edgesAfter points done) uses =
      if ∀ i, (usersOf (done ++ uses) i).length ≤ 2 then .ok (edgesAfter points (done ++ uses))
      else .error .assert := by
  induction uses generalizing done with
  | nil => simp [attachAll, hd]
  | cons x rest ih =>
    obtain ⟨rp, i⟩ := x
    have hi : i < points.length := hb (rp, i) (by simp)
    have hget := getElem?_edgesAfter points done i
    rw [List.getElem?_eq_getElem hi] at hget
    have hrest : ∀ u ∈ rest, u.2 < points.length := fun u hu => hb u (by simp [hu])
    have hassoc : done ++ (rp, i) :: rest = (done ++ [(rp, i)]) ++ rest := by simp
    have hafter := getElem?_edgesAfter points (done ++ [(rp, i)]) i
    rw [List.getElem?_eq_getElem hi, usersOf_append, usersOf_single, if_pos rfl] at hafter
    have hcnt : ∀ j, (usersOf (done ++ [(rp, i)]) j).length =
        (usersOf done j).length + if i = j then 1 else 0 := by
      intro j; rw [usersOf_append, usersOf_single]; split <;> simp
    simp only [attachAll, hget, Option.map_some]
    have hdi := hd i
    match hus : usersOf done i with
    | [] =>
      simp only [hus, List.getElem?_nil, if_true]
      rw [hus] at hafter
      have := edgesAfter_snoc (points := points) (done := done) (rp := rp) (i := i) hafter
      simp only [List.nil_append, List.getElem?_cons_zero, List.getElem?_cons_succ, List.getElem?_nil] at this
      rw [this, ih _ hrest, hassoc]
      intro j
      rw [hcnt]
      have := hd j
      split
      · rename_i hij; subst hij; simp [hus]
      · omega
    | [a] =>
      simp only [hus, List.getElem?_cons_zero, List.getElem?_cons_succ, List.getElem?_nil, if_true,
        reduceCtorEq, if_false]
      rw [hus] at hafter
      have := edgesAfter_snoc (points := points) (done := done) (rp := rp) (i := i) hafter
      simp only [List.cons_append, List.nil_append, List.getElem?_cons_zero, List.getElem?_cons_succ] at this
      rw [this, ih _ hrest, hassoc]
      intro j
      rw [hcnt]
      have := hd j
      split
      · rename_i hij; subst hij; simp [hus]
      · omega
    | [a, b] =>
      simp only [hus, List.getElem?_cons_zero, List.getElem?_cons_succ, reduceCtorEq, if_false]
      rw [if_neg]
      intro h
      have := h i
      rw [hassoc, usersOf_append, List.length_append, hcnt] at this
      simp [hus] at this
      omega
    | a :: b :: c :: t => rw [hus] at hdi; simp at hdi

theorem edgesAfter_nil (points : List (List Point)) :
    edgesAfter points [] = points.map (fun ps => ⟨ps, none, none⟩) := by
  apply List.ext_getElem?
  intro i
  rw [getElem?_edgesAfter, List.getElem?_map]
  rfl

theorem regionsUses_bound {δ : Type} {k : Nat} {rs : List (BuildRegion δ)}
    (h : ∀ r ∈ rs, InBounds k r) (n : Nat) : ∀ u ∈ regionsUses n rs, u.2 < k := by
  have hr : ∀ (rings : List (List DirectedEdge)) (n : Nat) (inner : Bool) (j : Nat),
      (∀ ring ∈ rings, ∀ de ∈ ring, de.edge < k) → ∀ u ∈ ringsUses n inner j rings, u.2 < k := by
    intro rings
    induction rings with
    | nil => intro _ _ _ _ u hu; cases hu
    | cons r rings ih =>
      intro n inner j hb u hu
      simp only [ringsUses, List.mem_append, ringUses, List.mem_map] at hu
      rcases hu with ⟨de, hde, rfl⟩ | hu
      · exact hb r (by simp) de hde
      · exact ih n inner (j + 1) (fun r hr => hb r (by simp [hr])) u hu
  induction rs generalizing n with
  | nil => intro u hu; cases hu
  | cons r rs ih =>
    intro u hu
    simp only [regionsUses, List.mem_append] at hu
    have h0 := h r (by simp)
    rcases hu with (hu | hu) | hu
    · exact hr _ _ _ _ (fun ring hring => h0 ring (by simp [hring])) u hu
    · exact hr _ _ _ _ (fun ring hring => h0 ring (by simp [hring])) u hu
    · exact ih (fun r hr => h r (by simp [hr])) (n + 1) u hu

open Classical in
/-- The second half of `into_topology` in closed form. -/
theorem finishTopology_eq {δ : Type} {points : List (List Point)} {rs : List (BuildRegion δ)}
    (hb : ∀ r ∈ rs, InBounds points.length r) :
    finishTopology points rs =
      if ∀ i, (usersOf (regionsUses 0 rs) i).length ≤ 2
      then .ok ⟨setRegionPtrs 0 (rs.map toTopoRegion), edgesAfter points (regionsUses 0 rs)⟩
      else .error .assert := by
  unfold finishTopology
  simp only [List.length_map, buildRegionsToTopoRegions_ok hb, ok_bind, attachRegions_eq]
  rw [← edgesAfter_nil, attachAll_eq (regionsUses 0 rs) [] (regionsUses_bound hb 0) (by simp [usersOf])]
  simp only [List.nil_append]
  split <;> rfl

theorem finishTopology_of_ok {δ : Type} {points : List (List Point)} {rs : List (BuildRegion δ)} {t}
    (h : finishTopology points rs = .ok t) : ∀ r ∈ rs, InBounds points.length r := by
  simp only [finishTopology, bind_ok, List.length_map] at h
  obtain ⟨x, hx, _⟩ := h
  exact buildRegionsToTopoRegions_of_ok hx

theorem setRegionPtrs_getElem? {δ : Type} (rs : List (TopoRegion δ)) (n i : Nat) :
    (setRegionPtrs n rs)[i]? = (rs[i]?).map (setRegionPtr (n + i)) := by
  induction rs generalizing n i with
  | nil => simp [setRegionPtrs]
  | cons r rs ih =>
    cases i with
    | zero => simp [setRegionPtrs]
    | succ i => simp [setRegionPtrs, ih]; congr 2; omega

theorem setRegionPtrs_eq {δ : Type} (rs : List (TopoRegion δ)) (n : Nat) :
    setRegionPtrs n rs = (rs.zipIdx n).map fun x => setRegionPtr x.2 x.1 := by
  induction rs generalizing n with
  | nil => rfl
  | cons r rs ih => simp [setRegionPtrs, ih]

/-- The spec's list of users is the list of recorded uses. -/
theorem ringsUsing_finish {δ : Type} (rs : List (BuildRegion δ)) (edges : List TopoEdge) (i : Nat) :
    ringsUsing ⟨setRegionPtrs 0 (rs.map toTopoRegion), edges⟩ i = usersOf (regionsUses 0 rs) i := by
  have hrings : ∀ (rings : List BuildRing) (n : Nat) (inner : Bool) (j : Nat) (reg : Option Nat),
      ((rings.map (fun ds => (⟨ds, reg⟩ : TopoRing))).zipIdx j).flatMap (fun x =>
        (x.1.directedEdges.filter (·.edge = i)).map fun _ => (⟨n, inner, x.2⟩ : RingPtr)) =
      usersOf (ringsUses n inner j rings) i := by
    intro rings
    induction rings with
    | nil => intros; rfl
    | cons ds rings ih =>
      intro n inner j reg
      simp only [List.map_cons, List.zipIdx_cons, List.flatMap_cons, ih, ringsUses, usersOf_append]
      congr 1
      unfold usersOf ringUses
      rw [List.filter_map, List.map_map]
      rfl
  have key : ∀ n, ((setRegionPtrs n (rs.map toTopoRegion)).zipIdx n).flatMap (fun x =>
      (x.1.outerRings.zipIdx.flatMap fun y =>
        (y.1.directedEdges.filter (·.edge = i)).map fun _ => (⟨x.2, false, y.2⟩ : RingPtr)) ++
      (x.1.innerRings.zipIdx.flatMap fun y =>
        (y.1.directedEdges.filter (·.edge = i)).map fun _ => (⟨x.2, true, y.2⟩ : RingPtr))) =
      usersOf (regionsUses n rs) i := by
    induction rs with
    | nil => intros; rfl
    | cons r rs ih =>
      intro n
      simp only [List.map_cons, setRegionPtrs, List.zipIdx_cons, List.flatMap_cons, ih, regionsUses,
        usersOf_append]
      congr 1
      simp only [setRegionPtr, toTopoRegion, List.map_map]
      have hc : ((fun (t : TopoRing) => ({ t with region := some n } : TopoRing)) ∘
          fun (ds : BuildRing) => (⟨ds, none⟩ : TopoRing)) = fun ds => ⟨ds, some n⟩ := rfl
      rw [hc, hrings, hrings]
  exact key 0

/-- Whatever `into_topology` returns has exact back pointers. -/
theorem finishTopology_backPointers {δ : Type} {points : List (List Point)} {rs : List (BuildRegion δ)}
    {t : Topology δ} (h : finishTopology points rs = .ok t) :
    BackPointersExact t ∧ t.edges.map (·.points) = points ∧
    t.regions = setRegionPtrs 0 (rs.map toTopoRegion) := by
  have hb := finishTopology_of_ok h
  rw [finishTopology_eq hb] at h
  split at h
  · rename_i hle
    obtain rfl := Except.ok.inj h
    refine ⟨⟨?_, ?_, ?_⟩, ?_, rfl⟩
    · intro i e he
      rw [ringsUsing_finish]
      simp only [getElem?_edgesAfter, Option.map_eq_some_iff] at he
      obtain ⟨ps, _, rfl⟩ := he
      exact ⟨hle i, rfl, rfl⟩
    · intro n r hr ring hring
      simp only [setRegionPtrs_getElem?, Option.map_eq_some_iff] at hr
      obtain ⟨r', _, rfl⟩ := hr
      simp only [setRegionPtr, List.mem_append, List.mem_map] at hring
      rcases hring with ⟨x, _, rfl⟩ | ⟨x, _, rfl⟩ <;> simp
    · intro de hde
      simp only [allDirectedEdges, allRings, List.mem_flatMap] at hde
      obtain ⟨ring, ⟨r, hr, hring⟩, hde⟩ := hde
      rw [setRegionPtrs_eq] at hr
      obtain ⟨⟨r', n⟩, hr', rfl⟩ := List.mem_map.mp hr
      obtain ⟨b, hbm, rfl⟩ := List.mem_map.mp (List.mem_of_getElem? (List.mem_zipIdx_iff_getElem?.mp hr'))
      have hbb := hb b hbm
      simp only [setRegionPtr, toTopoRegion, List.mem_append, List.map_map, List.mem_map,
        Function.comp_apply] at hring
      have hl : (edgesAfter points (regionsUses 0 rs)).length = points.length := by simp [edgesAfter]
      rw [hl]
      rcases hring with ⟨x, hx, rfl⟩ | ⟨x, hx, rfl⟩
      · exact hbb x (by simp [hx]) de hde
      · exact hbb x (by simp [hx]) de hde
    · apply List.ext_getElem?
      intro i
      rw [List.getElem?_map, getElem?_edgesAfter]
      cases points[i]? <;> rfl
  · cases h

/-! ## The whole builder -/

theorem stored_mem_keysOf {δ : Type} {rs : List (Region δ)} {e : List Point} (h : e ∈ allPaths rs) :
    stored e ∈ keysOf rs := mem_keysOf.mpr ⟨e, h, rfl⟩

theorem toBuildRegion_inBounds {δ : Type} (rs : List (Region δ)) :
    ∀ r ∈ (keptRegions rs).map (toBuildRegion (keysOf rs)), InBounds (keysOf rs).length r := by
  intro r hr
  obtain ⟨k, hk, rfl⟩ := List.mem_map.mp hr
  intro ring hring de hde
  simp only [toBuildRegion, List.mem_append, List.mem_map] at hring
  rcases hring with ⟨p, hp, rfl⟩ | ⟨p, hp, rfl⟩ <;>
  · obtain ⟨e, he, rfl⟩ := List.mem_map.mp hde
    refine keyIdx_lt (stored_mem_keysOf (mem_allPaths hk ?_))
    rw [List.mem_append, List.mem_flatten, List.mem_flatten]
    first
    | exact Or.inl ⟨p, hp, he⟩
    | exact Or.inr ⟨p, hp, he⟩

theorem intoTopologyWith_eq {δ : Type} {m : Build} {rs : List (Region δ)} {b : TopologyBuilder δ}
    (h : TopologyBuilder.new.addRegions m rs = .ok b) {order : EdgeMap} (ho : order.Perm b.edges) :
    b.intoTopologyWith order =
      finishTopology (keysOf rs) ((keptRegions rs).map (toBuildRegion (keysOf rs))) := by
  obtain ⟨h1, h2⟩ := addRegions_new_ok h
  rw [h1] at ho
  unfold TopologyBuilder.intoTopologyWith
  rw [h1, h2, List.length_zipIdx, placeEdges_perm ho, ok_bind, expectAll_map_some, ok_bind]

theorem intoTopology_eq {δ : Type} {m : Build} {rs : List (Region δ)} {b : TopologyBuilder δ}
    (h : TopologyBuilder.new.addRegions m rs = .ok b) :
    b.intoTopology =
      finishTopology (keysOf rs) ((keptRegions rs).map (toBuildRegion (keysOf rs))) :=
  intoTopologyWith_eq h (List.Perm.refl _)

theorem buildTopology_ok {δ : Type} {m : Build} {rs : List (Region δ)} {t : Topology δ}
    (h : buildTopology m rs = .ok t) :
    finishTopology (keysOf rs) ((keptRegions rs).map (toBuildRegion (keysOf rs))) = .ok t := by
  simp only [buildTopology, bind_ok] at h
  obtain ⟨b, hb, h⟩ := h
  rw [← h, intoTopology_eq hb]

theorem buildTopology_facts {δ : Type} {m : Build} {rs : List (Region δ)} {t : Topology δ}
    (h : buildTopology m rs = .ok t) :
    BackPointersExact t ∧ t.edges.map (·.points) = keysOf rs ∧
    t.regions = setRegionPtrs 0 (((keptRegions rs).map (toBuildRegion (keysOf rs))).map toTopoRegion) :=
  finishTopology_backPointers (buildTopology_ok h)

theorem walk_eq (edges : List TopoEdge) (de : DirectedEdge) :
    walk edges de = ((edges.map (·.points))[de.edge]?).map fun ps =>
      match de.direction with
      | .forward => ps
      | .backward => ps.reverse := by
  unfold walk
  rw [List.getElem?_map, Option.map_map]
  rfl

theorem walk_directedFor {edges : List TopoEdge} {ks : List (List Point)}
    (hk : edges.map (·.points) = ks) {e : List Point} (he : stored e ∈ ks) :
    walk edges (directedFor ks e) = some e := by
  rw [walk_eq, hk]
  simp only [directedFor]
  rw [getElem?_keyIdx he, Option.map_some]
  unfold stored
  by_cases hf : storedForward e <;> simp [hf]

theorem regionsUses_snd {δ : Type} (ks : List (List Point)) (n : Nat) (kr : List (KeptRegion δ)) :
    (regionsUses n (kr.map (toBuildRegion ks))).map Prod.snd =
      (kr.flatMap fun k => k.outer.flatten ++ k.inner.flatten).map fun e => keyIdx ks (stored e) := by
  have hr : ∀ (rings : List (List (List Point))) (n : Nat) (inner : Bool) (j : Nat),
      (ringsUses n inner j (rings.map fun p => p.map (directedFor ks))).map Prod.snd =
        rings.flatten.map fun e => keyIdx ks (stored e) := by
    intro rings
    induction rings with
    | nil => intros; rfl
    | cons p rings ih =>
      intro n inner j
      simp only [List.map_cons, ringsUses, List.map_append, ih, List.flatten_cons, ringUses, List.map_map]
      congr 1
  induction kr generalizing n with
  | nil => rfl
  | cons k kr ih =>
    simp only [List.map_cons, regionsUses, toBuildRegion, List.map_append, List.flatMap_cons, hr]
    rw [← ih (n + 1)]

theorem usersOf_length (uses : Uses) (i : Nat) :
    (usersOf uses i).length = (uses.map Prod.snd).count i := by
  induction uses with
  | nil => rfl
  | cons u uses ih =>
    have : usersOf (u :: uses) i = usersOf [u] i ++ usersOf uses i := usersOf_append [u] uses i
    rw [this, List.length_append, ih]
    obtain ⟨rp, j⟩ := u
    rw [usersOf_single, List.map_cons, List.count_cons]
    by_cases hj : j = i <;> simp [hj] <;> omega

theorem keyIdx_inj {κ : Type} [DecidableEq κ] {ks : List κ} {a b : κ} (ha : a ∈ ks) (hb : b ∈ ks)
    (h : keyIdx ks a = keyIdx ks b) : a = b := by
  have h1 := getElem?_keyIdx ha
  rw [h, getElem?_keyIdx hb] at h1
  exact (Option.some.inj h1).symm

/-- How often an edge of the topology is used. -/
theorem usersOf_built {δ : Type} (rs : List (Region δ)) (i : Nat) :
    (usersOf (regionsUses 0 ((keptRegions rs).map (toBuildRegion (keysOf rs)))) i).length =
      match (keysOf rs)[i]? with
      | none => 0
      | some k => ((allPaths rs).filter fun e => stored e = k).length := by
  rw [usersOf_length, regionsUses_snd, List.count_eq_length_filter, List.filter_map, List.length_map]
  have hall : ((keptRegions rs).flatMap fun k => k.outer.flatten ++ k.inner.flatten) = allPaths rs := rfl
  rw [hall]
  cases hk : (keysOf rs)[i]? with
  | none =>
    simp only
    rw [List.length_eq_zero_iff, List.filter_eq_nil_iff]
    intro e he heq
    have hm := getElem?_keyIdx (stored_mem_keysOf he)
    simp only [Function.comp_apply, beq_iff_eq] at heq
    rw [heq, hk] at hm
    cases hm
  | some k =>
    simp only
    congr 1
    apply List.filter_congr
    intro e he
    have hm := getElem?_keyIdx (stored_mem_keysOf he)
    simp only [Function.comp_apply]
    rw [Bool.eq_iff_iff, beq_iff_eq, decide_eq_true_iff]
    constructor
    · intro heq
      rw [heq, hk] at hm
      exact (Option.some.inj hm).symm
    · rintro rfl
      have hi := (List.getElem?_eq_some_iff.mp hm)
      have hi' := (List.getElem?_eq_some_iff.mp hk)
      have hnd := List.pairwise_iff_getElem.mp (nodup_keysOf rs)
      rcases Nat.lt_trichotomy (keyIdx (keysOf rs) (stored e)) i with hlt | hlt | hlt
      · exact absurd (hi.2.trans hi'.2.symm) (hnd _ _ hi.1 hi'.1 hlt)
      · exact hlt
      · exact absurd (hi'.2.trans hi.2.symm) (hnd _ _ hi'.1 hi.1 hlt)

theorem mem_allDirectedEdges {δ : Type} {m : Build} {rs : List (Region δ)} {t : Topology δ}
    (h : buildTopology m rs = .ok t) {de : DirectedEdge} (hde : de ∈ allDirectedEdges t) :
    ∃ e ∈ allPaths rs, de = directedFor (keysOf rs) e := by
  obtain ⟨_, _, h3⟩ := buildTopology_facts h
  simp only [allDirectedEdges, allRings, List.mem_flatMap] at hde
  obtain ⟨ring, ⟨r, hr, hring⟩, hde⟩ := hde
  rw [h3, setRegionPtrs_eq] at hr
  obtain ⟨⟨r', n⟩, hr', rfl⟩ := List.mem_map.mp hr
  obtain ⟨b, hbm, rfl⟩ := List.mem_map.mp (List.mem_of_getElem? (List.mem_zipIdx_iff_getElem?.mp hr'))
  obtain ⟨k, hk, rfl⟩ := List.mem_map.mp hbm
  simp only [setRegionPtr, toTopoRegion, toBuildRegion, List.mem_append, List.map_map, List.mem_map,
    Function.comp_apply] at hring
  rcases hring with ⟨x, hx, rfl⟩ | ⟨x, hx, rfl⟩ <;>
  · simp only [List.mem_map] at hde
    obtain ⟨e, he, rfl⟩ := hde
    refine ⟨e, mem_allPaths hk ?_, rfl⟩
    rw [List.mem_append, List.mem_flatten, List.mem_flatten]
    first
    | exact Or.inl ⟨x, hx, he⟩
    | exact Or.inr ⟨x, hx, he⟩

theorem not_zeroLength_of_mem_allPaths {δ : Type} {rs : List (Region δ)} {e : List Point}
    (h : e ∈ allPaths rs) : ¬ ZeroLength e := by
  have hp : ∀ r : Ring, ∀ e ∈ ringPaths r, ¬ ZeroLength e := by
    intro r e he
    rw [ringPaths_eq] at he
    simpa using (List.mem_filter.mp he).2
  obtain ⟨k, hk, he⟩ := List.mem_flatMap.mp h
  obtain ⟨r, _, rfl⟩ := List.mem_map.mp hk
  simp only [List.mem_append, List.mem_flatten, List.mem_map] at he
  rcases he with ⟨_, ⟨x, _, rfl⟩, he⟩ | ⟨_, ⟨x, _, rfl⟩, he⟩ <;> exact hp x e he

theorem stored_cases (e : List Point) : stored e = e ∨ stored e = e.reverse := by
  unfold stored; split <;> simp

theorem pathArea_reverse (e : List Point) :
    pathArea e.reverse = if pathArea e = -2 ^ 63 then -2 ^ 63 else -pathArea e := by
  unfold pathArea
  rw [shoelace_reverse]
  unfold wrap64
  split <;> omega

/-- A path that its reverse is told apart from: open, or with an area that has
a negation. -/
def Orientable (e : List Point) : Prop :=
  e.head? ≠ e.getLast? ∨ (pathArea e ≠ 0 ∧ pathArea e ≠ -2 ^ 63)

theorem stored_reverse {e : List Point} (h : Orientable e) :
    stored e.reverse = stored e ∧ (storedForward e.reverse ↔ ¬ storedForward e) := by
  have key : storedForward e.reverse ↔ ¬ storedForward e := by
    unfold storedForward
    rw [List.head?_reverse, List.getLast?_reverse]
    unfold Orientable at h
    rw [pathArea_reverse]
    match h1 : e.head?, h2 : e.getLast? with
    | some p, some q =>
      simp only
      rw [h1, h2] at h
      by_cases hpq : p = q
      · subst hpq
        have hi := Point.lt_irrefl p
        simp only [hi, false_or, true_and]
        rcases h with h | ⟨h3, h4⟩
        · exact absurd rfl h
        · rw [if_neg h4]; omega
      · have hqp : ¬ q = p := fun h => hpq h.symm
        simp only [hpq, hqp, false_and, or_false]
        rcases Point.trichotomy p q with h | h | h
        · exact ⟨fun h' => absurd h (Point.lt_asymm h'), fun h' => absurd h h'⟩
        · exact absurd h hpq
        · exact ⟨fun _ => Point.lt_asymm h, fun _ => h⟩
    | none, _ =>
      have : e = [] := by simpa using h1
      subst this
      simp at h
      exact absurd (by decide : pathArea [] = 0) h.1
    | some p, none =>
      have : e = [] := by simpa using h2
      subst this
      simp at h1
  refine ⟨?_, key⟩
  unfold stored
  by_cases hf : storedForward e
  · rw [if_pos hf, if_neg (fun h' => key.mp h' hf), List.reverse_reverse]
  · rw [if_neg hf, if_pos (key.mpr hf)]

/-- The stored form runs from the smaller to the larger end, or is closed and
clockwise, as far as its area has a sign. -/
theorem stored_canonical {e : List Point} (h : e ≠ []) :
    ∃ p q, (stored e).head? = some p ∧ (stored e).getLast? = some q ∧
      (p < q ∨ (p = q ∧ (0 ≤ pathArea (stored e) ∨ pathArea (stored e) = -2 ^ 63))) := by
  have h1 := List.head?_eq_some_head h
  have h2 := List.getLast?_eq_some_getLast h
  unfold stored
  by_cases hf : storedForward e
  · rw [if_pos hf]
    refine ⟨_, _, h1, h2, ?_⟩
    unfold storedForward at hf
    rw [h1, h2] at hf
    rcases hf with hf | ⟨hf, ha⟩
    · exact Or.inl hf
    · exact Or.inr ⟨hf, Or.inl ha⟩
  · rw [if_neg hf, List.head?_reverse, List.getLast?_reverse, pathArea_reverse]
    refine ⟨_, _, h2, h1, ?_⟩
    unfold storedForward at hf
    rw [h1, h2] at hf
    simp only [not_or, not_and] at hf
    rcases Point.trichotomy (e.head h) (e.getLast h) with h' | h' | h'
    · exact absurd h' hf.1
    · right
      refine ⟨h'.symm, ?_⟩
      have := hf.2 h'
      split
      · exact Or.inr rfl
      · left; omega
    · exact Or.inl h'

end TopoGeo
