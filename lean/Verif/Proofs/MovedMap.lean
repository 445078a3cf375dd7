import Verif.Spec.MovedMap
import Verif.Proofs.Normalize
import Verif.Proofs.SimplifyMoved
/-!
# Computations on maps that differ in the place of points

The correspondence of points has to respect their order, and areas up to something
that cancels along closed rings.
-/

namespace TopoGeo

open Spec

variable {m : Build} {P : Prop}

theorem Agree.bind {α β γ δ : Type} {r : α → β → Prop} {s : γ → δ → Prop} {x : R α} {y : R β} {f : α → R γ} {g : β → R δ}
    (h : Agree P r x y) (hf : ∀ a b, r a b → Agree P s (f a) (g b)) : Agree P s (x >>= f) (y >>= g) := by
  cases x with
  | error e =>
    cases y with
    | error e' => exact h
    | ok b =>
      rw [error_bind, ok_bind]
      obtain ⟨hP, rfl⟩ := h
      cases g b with
      | error e' => exact .inr ⟨hP, .inl rfl⟩
      | ok _ => exact ⟨hP, rfl⟩
  | ok a =>
    cases y with
    | error e' =>
      rw [error_bind, ok_bind]
      obtain ⟨hP, rfl⟩ := h
      cases f a with
      | error e => exact .inr ⟨hP, .inr rfl⟩
      | ok _ => exact ⟨hP, rfl⟩
    | ok b => exact hf a b h

theorem Agree.ok {α β : Type} {r : α → β → Prop} {a : α} {b : β} (h : r a b) : Agree P r (.ok a) (.ok b) := h

theorem Agree.error {α β : Type} {r : α → β → Prop} (e : Panic) : Agree P r (.error e) (.error e) := .inl rfl

theorem Agree.imp {α β : Type} {r s : α → β → Prop} {x : R α} {y : R β} (h : Agree P r x y) (hi : ∀ a b, r a b → s a b) :
    Agree P s x y := by
  cases x with
  | error e => cases y <;> exact h
  | ok a =>
    cases y with
    | error e' => exact h
    | ok b => exact hi a b h

theorem Agree.imp_ok {α β : Type} {r s : α → β → Prop} {x : R α} {y : R β} (h : Agree P r x y)
    (hi : ∀ a b, x = .ok a → y = .ok b → r a b → s a b) : Agree P s x y := by
  cases x with
  | error e => cases y <;> exact h
  | ok a =>
    cases y with
    | error e' => exact h
    | ok b => exact hi a b rfl rfl h

theorem Agree.refl {α : Type} (x : R α) : Agree P (· = ·) x x := by
  cases x with
  | ok a => exact rfl
  | error e => exact .inl rfl

theorem Agree.of_eq {α : Type} {x y : R α} (h : x = y) : Agree P (· = ·) x y := h ▸ Agree.refl x

/-- Points stay where they are. -/
def Fixed (T : Point → Point → Prop) : Prop := ∀ a b, T a b → a = b

/-- What is asked of a correspondence of points: it respects order, areas change by
something that cancels along closed rings, and if overflows are not to differ then
points are the same. -/
structure Rigid (m : Build) (P : Prop) (T : Point → Point → Prop) (φ : Point → Int) : Prop where
  less : ∀ {a b c d}, T a b → T c d → (a < c ↔ b < d)
  cross : ∀ {a b c d}, T a b → T c d → cross b d = cross a c + φ c - φ a
  strict : m = .debug → P ∨ Fixed T

theorem forall₂_fixed {α : Type} {r : α → α → Prop} (hr : ∀ a b, r a b → a = b) {l k : List α} (h : List.Forall₂ r l k) : l = k := by
  induction h with
  | nil => rfl
  | cons h1 _ ih => rw [hr _ _ h1, ih]

theorem word_trichotomy (a b : UInt32) : a < b ∨ a = b ∨ b < a := by
  rw [UInt32.lt_iff_toNat_lt, UInt32.lt_iff_toNat_lt, ← UInt32.toNat_inj]
  omega

theorem point_trichotomy (p q : Point) : p < q ∨ p = q ∨ q < p := by
  rcases word_trichotomy p.x q.x with h | h | h
  · exact .inl (.inl h)
  · rcases word_trichotomy p.y q.y with h' | h' | h'
    · exact .inl (.inr ⟨h, h'⟩)
    · refine .inr (.inl ?_)
      cases p
      cases q
      simp only [Point.mk.injEq]
      exact ⟨h, h'⟩
    · exact .inr (.inr (.inr ⟨h.symm, h'⟩))
  · exact .inr (.inr (.inl h))

theorem point_irrefl (p : Point) : ¬ p < p := by
  rintro (h | ⟨_, h⟩)
  · exact absurd h (UInt32.lt_irrefl p.x)
  · exact absurd h (UInt32.lt_irrefl p.y)

section

variable {T : Point → Point → Prop} {φ : Point → Int}

theorem Rigid.equal (hT : Rigid m P T φ) {a b c d : Point} (h : T a b) (h' : T c d) : a = c ↔ b = d := by
  constructor
  · rintro rfl
    rcases point_trichotomy b d with h1 | h1 | h1
    · exact absurd ((hT.less h h').mpr h1) (point_irrefl a)
    · exact h1
    · exact absurd ((hT.less h' h).mpr h1) (point_irrefl a)
  · rintro rfl
    rcases point_trichotomy a c with h1 | h1 | h1
    · exact absurd ((hT.less h h').mp h1) (point_irrefl b)
    · exact h1
    · exact absurd ((hT.less h' h).mp h1) (point_irrefl b)

theorem Rigid.flat (hT : Rigid m P T φ) (he : Fixed T) {a b c d : Point} (h : T a b) (h' : T c d) : φ c - φ a = 0 := by
  have := hT.cross h h'
  obtain rfl := he _ _ h
  obtain rfl := he _ _ h'
  omega

theorem forall₂_equal {α β : Type} {r : α → β → Prop} (hr : ∀ {a b c d}, r a b → r c d → (a = c ↔ b = d)) {l k : List α} {l' k' : List β}
    (h : List.Forall₂ r l l') (h' : List.Forall₂ r k k') : l = k ↔ l' = k' := by
  induction h generalizing k k' with
  | nil =>
    cases h' with
    | nil => simp
    | cons _ _ => simp
  | cons h1 _ ih =>
    cases h' with
    | nil => simp
    | cons h2 h3 => rw [List.cons.injEq, List.cons.injEq, hr h1 h2, ih h3]

theorem forall₂_head {α β : Type} {r : α → β → Prop} {l : List α} {l' : List β} (h : List.Forall₂ r l l') :
    (l.head? = none ∧ l'.head? = none) ∨ ∃ a b, l.head? = some a ∧ l'.head? = some b ∧ r a b := by
  cases h with
  | nil => exact .inl ⟨rfl, rfl⟩
  | cons h _ => exact .inr ⟨_, _, rfl, rfl, h⟩

theorem forall₂_last {α β : Type} {r : α → β → Prop} {l : List α} {l' : List β} (h : List.Forall₂ r l l') :
    (l.getLast? = none ∧ l'.getLast? = none) ∨ ∃ a b, l.getLast? = some a ∧ l'.getLast? = some b ∧ r a b := by
  have := forall₂_head (List.forall₂_reverse_iff.mpr h)
  simpa only [List.head?_reverse] using this

theorem forall₂_append {α β : Type} {r : α → β → Prop} {l k : List α} {l' k' : List β} (h : List.Forall₂ r l l')
    (h' : List.Forall₂ r k k') : List.Forall₂ r (l ++ k) (l' ++ k') := by
  induction h with
  | nil => exact h'
  | cons h1 _ ih => exact .cons h1 ih

theorem ends_equal (hT : Rigid m P T φ) {ps qs : List Point} (h : SamePath T ps qs) :
    ps.head? = ps.getLast? ↔ qs.head? = qs.getLast? := by
  rcases forall₂_head h with ⟨h1, h2⟩ | ⟨a, b, h1, h2, h3⟩
  · have e1 : ps = [] := by simpa using h1
    have e2 : qs = [] := by simpa using h2
    rw [e1, e2]
  · rcases forall₂_last h with ⟨h4, _⟩ | ⟨c, d, h4, h5, h6⟩
    · have : ps = [] := by simpa using h4
      rw [this] at h1
      cases h1
    · rw [h1, h2, h4, h5, Option.some.injEq, Option.some.injEq, hT.equal h3 h6]

/-! ## Areas -/

theorem shoelace_rigid (hT : Rigid m P T φ) {ps qs : List Point} (h : SamePath T ps qs) :
    ∀ p z, ps.head? = some p → ps.getLast? = some z → shoelace qs = shoelace ps + φ z - φ p := by
  induction h with
  | nil => intro p z hp; cases hp
  | @cons a b as bs h1 h2 ih =>
    intro p z hp hz
    obtain rfl : a = p := by simpa using hp
    cases h2 with
    | nil =>
      obtain rfl : a = z := by simpa using hz
      simp [shoelace]
    | @cons c d cs ds h3 h4 =>
      have := ih c z rfl (by simpa using hz)
      simp only [shoelace]
      rw [this, hT.cross h1 h3]
      ring

theorem shoelaceEdges_rigid (hT : Rigid m P T φ) {es fs : List (List Point)} (h : List.Forall₂ (SamePath T) es fs)
    {a b : Point} (hl : Leads a es b) : shoelaceEdges fs = shoelaceEdges es + φ b - φ a := by
  induction h generalizing a with
  | nil =>
    obtain rfl : a = b := hl
    simp [shoelaceEdges]
  | @cons e f es fs h1 _ ih =>
    obtain ⟨h2, c, h3, h4⟩ := hl
    have h5 := ih h4
    have h6 := shoelace_rigid hT h1 a c h2 h3
    unfold shoelaceEdges at h5 ⊢
    rw [List.map_cons, List.map_cons, List.sum_cons, List.sum_cons, h5, h6]
    ring

theorem sameRing_eq (hT : Fixed T) {r s : Ring} (h : MatchedRing T r s) : r = s := by
  match r, s, h with
  | .points ps, .points qs, h => rw [forall₂_fixed hT h]
  | .edges es, .edges fs, h => rw [forall₂_fixed (fun _ _ h => forall₂_fixed hT h) h]

theorem ringShoelace_rigid (hT : Rigid m P T φ) {r s : Ring} (h : MatchedRing T r s) (hc : Fixed T ∨ RingCloses r) :
    ringShoelace s = ringShoelace r := by
  rcases hc with hc | hc
  · rw [sameRing_eq hc h]
  match r, s, h with
  | .points ps, .points qs, h =>
    cases ps with
    | nil => cases h; rfl
    | cons p t =>
      have hl : (p :: t).getLast? = some p := by
        have : (p :: t).head? = (p :: t).getLast? := hc
        rw [← this]; rfl
      have := shoelace_rigid hT h p p rfl hl
      show shoelace qs = shoelace (p :: t)
      rw [this]
      ring
  | .edges es, .edges fs, h =>
    rcases hc with rfl | ⟨_, a, ha⟩
    · cases h; rfl
    · have := shoelaceEdges_rigid hT h ha
      show shoelaceEdges fs = shoelaceEdges es
      rw [this]
      ring

/-- What can only overflow agrees if the results do. -/
theorem agree_of_ok (hT : Rigid m P T φ) {α β : Type} {r : α → β → Prop} {x : R α} {y : R β}
    (hs : Fixed T → Agree P r x y)
    (hx : ∀ e, x = .error e → m = .debug ∧ e = .overflow) (hy : ∀ e, y = .error e → m = .debug ∧ e = .overflow)
    (h : ∀ a b, x = .ok a → y = .ok b → r a b) : Agree P r x y := by
  cases x with
  | error e =>
    obtain ⟨h1, h2⟩ := hx e rfl
    rcases hT.strict h1 with hP | hT
    · cases y with
      | error e' => exact .inr ⟨hP, .inl h2⟩
      | ok b => exact ⟨hP, h2⟩
    · exact hs hT
  | ok a =>
    cases y with
    | error e' =>
      obtain ⟨h1, h2⟩ := hy e' rfl
      rcases hT.strict h1 with hP | hT
      · exact ⟨hP, h2⟩
      · exact hs hT
    | ok b => exact h a b rfl rfl

theorem area_agree (hT : Rigid m P T φ) {r s : Ring} (h : MatchedRing T r s) (hc : Fixed T ∨ RingCloses r) :
    Agree P (· = ·) (r.area2AndWindingOrder m) (s.area2AndWindingOrder m) := by
  refine agree_of_ok hT (fun hT => Agree.of_eq (by rw [sameRing_eq hT h])) (fun e => ring_area2AndWindingOrder_error)
    (fun e => ring_area2AndWindingOrder_error) fun a b ha hb => ?_
  rw [ring_area2AndWindingOrder_ok ha, ring_area2AndWindingOrder_ok hb, ringShoelace_rigid hT h hc]

/-! ## Building -/

theorem isZeroLength_same (hT : Rigid m P T φ) {ps qs : List Point} (h : SamePath T ps qs) : isZeroLength ps = isZeroLength qs := by
  unfold isZeroLength
  rw [h.length_eq]
  rcases forall₂_at h 0 with ⟨a, b, h1, h2, h3⟩ | ⟨h1, h2⟩ <;>
    rcases forall₂_at h 1 with ⟨c, d, h4, h5, h6⟩ | ⟨h4, h5⟩
  · rw [h1, h2, h4, h5]
    have := hT.equal h3 h6
    congr 2
    rw [Bool.eq_iff_iff]
    simpa using this
  · rw [h1, h2, h4, h5]
    rfl
  · rw [h1, h2, h4, h5]
    rfl
  · rw [h1, h2, h4, h5]

theorem canonicalize_agree (hT : Rigid m P T φ) {ps qs : List Point} (h : SamePath T ps qs) :
    Agree P (fun x y => SamePath T x.1 y.1 ∧ x.2 = y.2) (canonicalize m ps) (canonicalize m qs) := by
  have hrev : SamePath T ps.reverse qs.reverse := List.forall₂_reverse_iff.mpr h
  unfold canonicalize
  rcases forall₂_head h with ⟨h1, h2⟩ | ⟨a, b, h1, h2, h3⟩
  · rw [h1, h2]; exact Agree.error _
  · rcases forall₂_last h with ⟨h4, h5⟩ | ⟨c, d, h4, h5, h6⟩
    · rw [h1, h2, h4, h5]; exact Agree.error _
    · rw [h1, h2, h4, h5]
      dsimp only
      by_cases hlt : a < c
      · rw [if_pos hlt, if_pos ((hT.less h3 h6).mp hlt)]
        exact ⟨h, rfl⟩
      · rw [if_neg hlt, if_neg (mt (hT.less h3 h6).mpr hlt)]
        by_cases heq : a = c
        · rw [if_pos heq, if_pos ((hT.equal h3 h6).mp heq)]
          have hc : RingCloses (.points ps) := by
            show ps.head? = ps.getLast?
            rw [h1, h4, heq]
          have hw : Agree P (· = ·) ((Ring.points ps).windingOrder m) ((Ring.points qs).windingOrder m) := by
            unfold Ring.windingOrder
            exact Agree.bind (area_agree hT (r := .points ps) (s := .points qs) h (.inr hc)) fun x y hxy => congrArg Prod.snd hxy
          refine Agree.bind hw ?_
          rintro w _ rfl
          split
          · exact ⟨h, rfl⟩
          · exact ⟨hrev, rfl⟩
        · rw [if_neg heq, if_neg (mt (hT.equal h3 h6).mpr heq)]
          exact ⟨hrev, rfl⟩

/-- Entries of hash maps that correspond. -/
def SameEntry {κ μ : Type} (K : κ → μ → Prop) (x : κ × Nat) (y : μ × Nat) : Prop := K x.1 y.1 ∧ x.2 = y.2

theorem mapGet_same {κ μ : Type} [DecidableEq κ] [DecidableEq μ] {K : κ → μ → Prop}
    (hK : ∀ {a b c d}, K a b → K c d → (a = c ↔ b = d)) {es : List (κ × Nat)} {fs : List (μ × Nat)}
    (h : List.Forall₂ (SameEntry K) es fs) {k : κ} {l : μ} (hkl : K k l) : mapGet k es = mapGet l fs := by
  induction h with
  | nil => rfl
  | @cons x y es fs h1 _ ih =>
    obtain ⟨k', v⟩ := x
    obtain ⟨l', w⟩ := y
    obtain ⟨h1, rfl⟩ := h1
    simp only [mapGet]
    have := hK hkl h1
    by_cases hk : k = k'
    · rw [if_pos hk, if_pos (this.mp hk)]
    · rw [if_neg hk, if_neg (mt this.mpr hk), ih]

theorem mapEntry_same {κ μ : Type} [DecidableEq κ] [DecidableEq μ] {K : κ → μ → Prop}
    (hK : ∀ {a b c d}, K a b → K c d → (a = c ↔ b = d)) {es : List (κ × Nat)} {fs : List (μ × Nat)}
    (h : List.Forall₂ (SameEntry K) es fs) {k : κ} {l : μ} (hkl : K k l) (n : Nat) :
    (mapEntry n k es).1 = (mapEntry n l fs).1 ∧ List.Forall₂ (SameEntry K) (mapEntry n k es).2 (mapEntry n l fs).2 := by
  unfold mapEntry
  rw [mapGet_same hK h hkl]
  cases mapGet l fs with
  | some id => exact ⟨rfl, h⟩
  | none => exact ⟨rfl, forall₂_append h (.cons ⟨hkl, rfl⟩ .nil)⟩

theorem path_equal (hT : Rigid m P T φ) {a : List Point} {b : List Point} {c : List Point} {d : List Point}
    (h : SamePath T a b) (h' : SamePath T c d) : a = c ↔ b = d :=
  forall₂_equal hT.equal h h'

/-- Edge maps that correspond. -/
abbrev SameEdges (T : Point → Point → Prop) (es fs : EdgeMap) : Prop := List.Forall₂ (SameEntry (SamePath T)) es fs

theorem buildDirectedEdge_agree (hT : Rigid m P T φ) {es fs : EdgeMap} (hes : SameEdges T es fs) {ps qs : List Point}
    (h : SamePath T ps qs) :
    Agree P (fun x y => x.1 = y.1 ∧ SameEdges T x.2 y.2) (buildDirectedEdge m es ps) (buildDirectedEdge m fs qs) := by
  unfold buildDirectedEdge
  rw [isZeroLength_same hT h]
  split
  · exact ⟨rfl, hes⟩
  · refine Agree.bind (canonicalize_agree hT h) ?_
    rintro ⟨p, d⟩ ⟨q, _⟩ ⟨hpq, rfl⟩
    have := mapEntry_same (path_equal hT) hes hpq es.length
    dsimp only
    rw [← hes.length_eq]
    exact ⟨by rw [this.1], this.2⟩

theorem buildDirectedEdges_agree (hT : Rigid m P T φ) {es fs : EdgeMap} (hes : SameEdges T es fs) {l k : List (List Point)}
    (h : List.Forall₂ (SamePath T) l k) :
    Agree P (fun x y => x.1 = y.1 ∧ SameEdges T x.2 y.2) (buildDirectedEdges m es l) (buildDirectedEdges m fs k) := by
  induction h generalizing es fs with
  | nil => exact ⟨rfl, hes⟩
  | cons h1 _ ih =>
    rw [buildDirectedEdges, buildDirectedEdges]
    refine Agree.bind (buildDirectedEdge_agree hT hes h1) ?_
    rintro ⟨o, es1⟩ ⟨_, fs1⟩ ⟨rfl, hes1⟩
    refine Agree.bind (ih hes1) ?_
    rintro ⟨ds, es2⟩ ⟨_, fs2⟩ ⟨rfl, hes2⟩
    exact ⟨rfl, hes2⟩

theorem getEdges_same {r s : Ring} (h : MatchedRing T r s) : List.Forall₂ (SamePath T) r.getEdges s.getEdges := by
  match r, s, h with
  | .edges es, .edges fs, h => exact h
  | .points ps, .points qs, h =>
    unfold Ring.getEdges
    dsimp only
    have h' : SamePath T ps qs := h
    clear h
    induction h' with
    | nil => exact .nil
    | @cons a b as bs h1 h2 ih =>
      cases h2 with
      | nil => exact .nil
      | @cons c d cs ds h3 h4 =>
        simp only [tupleWindows, List.map_cons]
        exact .cons (.cons h1 (.cons h3 .nil)) ih

theorem buildRing_agree (hT : Rigid m P T φ) {es fs : EdgeMap} (hes : SameEdges T es fs) {r s : Ring} (h : MatchedRing T r s)
    (hc : Fixed T ∨ RingCloses r) :
    Agree P (fun x y => x.1 = y.1 ∧ SameEdges T x.2 y.2) (buildRing m es r) (buildRing m fs s) := by
  unfold buildRing Ring.area2
  refine Agree.bind (r := (· = ·)) ?_ ?_
  · exact Agree.bind (area_agree hT h hc) fun x y hxy => congrArg Prod.fst hxy
  · rintro a _ rfl
    split
    · exact ⟨rfl, hes⟩
    · refine Agree.bind (buildDirectedEdges_agree hT hes (getEdges_same h)) ?_
      rintro ⟨ds, es1⟩ ⟨_, fs1⟩ ⟨rfl, hes1⟩
      exact ⟨rfl, hes1⟩

theorem buildRings_agree (hT : Rigid m P T φ) {es fs : EdgeMap} (hes : SameEdges T es fs) {l k : List Ring}
    (h : List.Forall₂ (MatchedRing T) l k) (hc : Fixed T ∨ ∀ r ∈ l, RingCloses r) :
    Agree P (fun x y => x.1 = y.1 ∧ SameEdges T x.2 y.2) (buildRings m es l) (buildRings m fs k) := by
  induction h generalizing es fs with
  | nil => exact ⟨rfl, hes⟩
  | cons h1 _ ih =>
    rw [buildRings, buildRings]
    refine Agree.bind (buildRing_agree hT hes h1 (hc.imp_right fun f => f _ (by simp))) ?_
    rintro ⟨o, es1⟩ ⟨_, fs1⟩ ⟨rfl, hes1⟩
    refine Agree.bind (ih hes1 (hc.imp_right fun f r hr => f r (List.mem_cons_of_mem _ hr))) ?_
    rintro ⟨ds, es2⟩ ⟨_, fs2⟩ ⟨rfl, hes2⟩
    exact ⟨rfl, hes2⟩

/-- Regions in the making that correspond. -/
structure SameBuildRegion {δ ε : Type} (D : δ → ε → Prop) (r : BuildRegion δ) (s : BuildRegion ε) : Prop where
  data : D r.data s.data
  outer : r.outerRings = s.outerRings
  inner : r.innerRings = s.innerRings

/-- Builders that correspond. -/
structure SameBuilder {δ ε : Type} (T : Point → Point → Prop) (D : δ → ε → Prop) (b : TopologyBuilder δ)
    (c : TopologyBuilder ε) : Prop where
  regions : List.Forall₂ (SameBuildRegion D) b.regions c.regions
  edges : SameEdges T b.edges c.edges

variable {δ ε : Type} {D : δ → ε → Prop}

theorem addRegion_agree (hT : Rigid m P T φ) {b : TopologyBuilder δ} {c : TopologyBuilder ε} (hbc : SameBuilder T D b c)
    {r : Region δ} {s : Region ε} (h : SameRegion T D r s) (hc : Fixed T ∨ ∀ ring ∈ r.outerRings ++ r.innerRings, RingCloses ring) :
    Agree P (SameBuilder T D) (b.addRegion m r) (c.addRegion m s) := by
  unfold TopologyBuilder.addRegion
  refine Agree.bind (buildRings_agree hT hbc.edges h.outer (hc.imp_right fun f ring hr => f ring (List.mem_append_left _ hr))) ?_
  rintro ⟨outer, es1⟩ ⟨_, fs1⟩ ⟨rfl, hes1⟩
  dsimp only
  split
  · refine Agree.bind (buildRings_agree hT hes1 h.inner (hc.imp_right fun f ring hr => f ring (List.mem_append_right _ hr))) ?_
    rintro ⟨inner, es2⟩ ⟨_, fs2⟩ ⟨rfl, hes2⟩
    exact ⟨forall₂_append hbc.regions (.cons ⟨h.data, rfl, rfl⟩ .nil), hes2⟩
  · exact ⟨hbc.regions, hes1⟩

theorem addRegions_agree (hT : Rigid m P T φ) {b : TopologyBuilder δ} {c : TopologyBuilder ε} (hbc : SameBuilder T D b c)
    {l : List (Region δ)} {k : List (Region ε)} (h : List.Forall₂ (SameRegion T D) l k)
    (hc : Fixed T ∨ ∀ r ∈ l, ∀ ring ∈ r.outerRings ++ r.innerRings, RingCloses ring) :
    Agree P (SameBuilder T D) (b.addRegions m l) (c.addRegions m k) := by
  induction h generalizing b c with
  | nil => exact hbc
  | cons h1 _ ih =>
    rw [TopologyBuilder.addRegions, TopologyBuilder.addRegions]
    exact Agree.bind (addRegion_agree hT hbc h1 (hc.imp_right fun f => f _ (by simp))) fun b' c' hbc' =>
      ih hbc' (hc.imp_right fun f r hr => f r (List.mem_cons_of_mem _ hr))

/-- Slots that correspond. -/
inductive SameSlot {α β : Type} (r : α → β → Prop) : Option α → Option β → Prop
  | none : SameSlot r none none
  | some {a b} : r a b → SameSlot r (some a) (some b)

theorem placeEdges_agree {α β : Type} {K : α → β → Prop} {slots : List (Option α)} {slots' : List (Option β)}
    (hs : List.Forall₂ (SameSlot K) slots slots') {es : List (α × Nat)} {fs : List (β × Nat)}
    (h : List.Forall₂ (SameEntry K) es fs) :
    Agree P (List.Forall₂ (SameSlot K)) (placeEdges slots es) (placeEdges slots' fs) := by
  induction h generalizing slots slots' with
  | nil => exact hs
  | @cons x y es fs h1 _ ih =>
    obtain ⟨k, i⟩ := x
    obtain ⟨l, j⟩ := y
    obtain ⟨hkl, rfl⟩ := h1
    rw [placeEdges, placeEdges]
    refine Agree.bind (r := List.Forall₂ (SameSlot K)) ?_ fun a b hab => ih hab
    unfold vecSet
    rw [hs.length_eq]
    split
    · exact forall₂_set hs i (.some hkl)
    · exact Agree.error _

theorem expectAll_agree {α β : Type} {K : α → β → Prop} {slots : List (Option α)} {slots' : List (Option β)}
    (hs : List.Forall₂ (SameSlot K) slots slots') :
    Agree P (List.Forall₂ K) (expectAll slots) (expectAll slots') := by
  induction hs with
  | nil => exact .nil
  | cons h1 _ ih =>
    cases h1 with
    | none => exact Agree.error _
    | some h1 =>
      rw [expectAll, expectAll]
      exact Agree.bind ih fun a b hab => List.Forall₂.cons h1 hab

theorem buildRegionsToTopoRegions_agree (n : Nat) {l : List (BuildRegion δ)} {k : List (BuildRegion ε)}
    (h : List.Forall₂ (SameBuildRegion D) l k) :
    Agree P (List.Forall₂ (SameTopoRegion D)) (buildRegionsToTopoRegions n l) (buildRegionsToTopoRegions n k) := by
  induction h with
  | nil => exact .nil
  | cons h1 _ ih =>
    rw [buildRegionsToTopoRegions, buildRegionsToTopoRegions, h1.outer, h1.inner]
    refine Agree.bind (Agree.refl _) ?_
    rintro outer _ rfl
    refine Agree.bind (Agree.refl _) ?_
    rintro inner _ rfl
    exact Agree.bind ih fun a b hab => List.Forall₂.cons ⟨h1.data, rfl, rfl⟩ hab

theorem attachRing_agree {es fs : List TopoEdge} (h : List.Forall₂ (SameEdge T) es fs) (rp : RingPtr) (des : List DirectedEdge) :
    Agree P (List.Forall₂ (SameEdge T)) (attachRing es rp des) (attachRing fs rp des) := by
  induction des generalizing es fs with
  | nil => exact h
  | cons de des ih =>
    rw [attachRing, attachRing]
    rcases forall₂_at h de.edge with ⟨a, b, h1, h2, h3⟩ | ⟨h1, h2⟩
    · rw [h1, h2]
      dsimp only
      rw [h3.ring0, h3.ring1]
      split
      · exact ih (forall₂_set h _ ⟨h3.points, rfl, rfl⟩)
      · split
        · exact ih (forall₂_set h _ ⟨h3.points, rfl, rfl⟩)
        · exact Agree.error _
    · rw [h1, h2]; exact Agree.error _

theorem attachRings_agree {es fs : List TopoEdge} (h : List.Forall₂ (SameEdge T) es fs) (region : Nat) (inner : Bool)
    (index : Nat) (rings : List TopoRing) :
    Agree P (List.Forall₂ (SameEdge T)) (attachRings es region inner index rings) (attachRings fs region inner index rings) := by
  induction rings generalizing es fs index with
  | nil => exact h
  | cons r rings ih =>
    rw [attachRings, attachRings]
    exact Agree.bind (attachRing_agree h _ _) fun a b hab => ih hab _

theorem attachRegions_agree {es fs : List TopoEdge} (h : List.Forall₂ (SameEdge T) es fs) (region : Nat)
    {l : List (TopoRegion δ)} {k : List (TopoRegion ε)} (hlk : List.Forall₂ (SameTopoRegion D) l k) :
    Agree P (List.Forall₂ (SameEdge T)) (attachRegions es region l) (attachRegions fs region k) := by
  induction hlk generalizing es fs region with
  | nil => exact h
  | cons h1 _ ih =>
    rw [attachRegions, attachRegions, h1.outer, h1.inner]
    refine Agree.bind (attachRings_agree h _ _ _ _) fun a b hab => ?_
    exact Agree.bind (attachRings_agree hab _ _ _ _) fun a' b' hab' => ih hab' _

theorem setRegionPtrs_same (n : Nat) {l : List (TopoRegion δ)} {k : List (TopoRegion ε)}
    (h : List.Forall₂ (SameTopoRegion D) l k) : List.Forall₂ (SameTopoRegion D) (setRegionPtrs n l) (setRegionPtrs n k) := by
  induction h generalizing n with
  | nil => exact .nil
  | cons h1 _ ih =>
    rw [setRegionPtrs, setRegionPtrs]
    refine .cons ⟨h1.data, ?_, ?_⟩ (ih _)
    · unfold setRegionPtr
      rw [h1.outer]
    · unfold setRegionPtr
      rw [h1.inner]

theorem finishTopology_agree {ps qs : List (List Point)} (h : List.Forall₂ (SamePath T) ps qs)
    {l : List (BuildRegion δ)} {k : List (BuildRegion ε)} (hlk : List.Forall₂ (SameBuildRegion D) l k) :
    Agree P (SameTopology T D) (finishTopology ps l) (finishTopology qs k) := by
  unfold finishTopology
  have h0 : List.Forall₂ (SameEdge T) (ps.map fun p => (⟨p, none, none⟩ : TopoEdge)) (qs.map fun p => (⟨p, none, none⟩ : TopoEdge)) := by
    rw [List.forall₂_map_left_iff, List.forall₂_map_right_iff]
    exact h.imp fun a b hab => ⟨hab, rfl, rfl⟩
  dsimp only
  rw [h0.length_eq]
  refine Agree.bind (buildRegionsToTopoRegions_agree _ hlk) fun a b hab => ?_
  exact Agree.bind (attachRegions_agree h0 _ hab) fun c d hcd => ⟨setRegionPtrs_same _ hab, hcd⟩

theorem replicate_same {α β : Type} {K : α → β → Prop} (n : Nat) :
    List.Forall₂ (SameSlot K) (List.replicate n none) (List.replicate n none) := by
  induction n with
  | zero => exact .nil
  | succ n ih => exact .cons .none ih

theorem intoTopology_agree {b : TopologyBuilder δ} {c : TopologyBuilder ε} (hbc : SameBuilder T D b c) :
    Agree P (SameTopology T D) b.intoTopology c.intoTopology := by
  unfold TopologyBuilder.intoTopology TopologyBuilder.intoTopologyWith
  rw [hbc.edges.length_eq]
  refine Agree.bind (placeEdges_agree (replicate_same _) hbc.edges) fun s s' hs => ?_
  exact Agree.bind (expectAll_agree hs) fun p q hpq => finishTopology_agree hpq hbc.regions

theorem buildTopology_agree (hT : Rigid m P T φ) {l : List (Region δ)} {k : List (Region ε)}
    (h : List.Forall₂ (SameRegion T D) l k) (hc : Fixed T ∨ ∀ r ∈ l, ∀ ring ∈ r.outerRings ++ r.innerRings, RingCloses ring) :
    Agree P (SameTopology T D) (buildTopology m l) (buildTopology m k) := by
  unfold buildTopology
  exact Agree.bind (addRegions_agree hT (b := TopologyBuilder.new) (c := TopologyBuilder.new) ⟨.nil, .nil⟩ h hc)
    fun b c hbc => intoTopology_agree hbc

end

end TopoGeo
