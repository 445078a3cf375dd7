import Verif.Proofs.SimplifyMoved
import Verif.Props.Simplify
import Verif.Spec.SimplifyError
/-!
# C84, C85: what simplifying respects, and what it does not
-/

namespace TopoGeo
open Spec

theorem sameUpTo_of_rrel {T : Point → Point → Prop} {x y : R (List Point)} (h : RRel (List.Forall₂ T) x y) :
    SameUpTo T x y := by
  cases x with
  | error e => cases y with
    | error e' => obtain rfl : e = e' := h; exact .inr ⟨e, rfl, rfl⟩
    | ok b => exact h.elim
  | ok a => cases y with
    | error e' => exact h.elim
    | ok b => exact .inl ⟨a, b, rfl, rfl, h⟩

theorem moved_keeps (m : Build) (dy : Int) : KeepsWeights m (Moved 0 dy) where
  equal := by
    intro a b c d h1 h2
    obtain ⟨h1, h3⟩ := h1
    obtain ⟨h2, h4⟩ := h2
    constructor
    · rintro rfl
      have e1 : b.x = d.x := UInt32.toNat_inj.mp (by omega)
      have e2 : b.y = d.y := UInt32.toNat_inj.mp (by omega)
      cases b; cases d; cases e1; cases e2; rfl
    · rintro rfl
      have e1 : a.x = c.x := UInt32.toNat_inj.mp (by omega)
      have e2 : a.y = c.y := UInt32.toNat_inj.mp (by omega)
      cases a; cases c; cases e1; cases e2; rfl
  weight := by
    intro a b c a' b' c' ha hb hc
    have xa : a'.xi = a.xi := by unfold Point.xi; have := ha.1; omega
    have xb : b'.xi = b.xi := by unfold Point.xi; have := hb.1; omega
    have xc : c'.xi = c.xi := by unfold Point.xi; have := hc.1; omega
    have y1 : c'.yi - a'.yi = c.yi - a.yi := by unfold Point.yi; have := hc.2; have := ha.2; omega
    have y2 : b'.yi - a'.yi = b.yi - a.yi := by unfold Point.yi; have := hb.2; have := ha.2; omega
    unfold triWeight
    rw [xa, xb, xc, y1, y2]

/-- C84: an edge that is moved up or down is simplified in the same way, in both
builds, for every threshold. -/
theorem C84_vertical (m : Build) (dy : Int) (ps qs : List Point) (s : Nat) (h : List.Forall₂ (Moved 0 dy) ps qs) :
    SameUpTo (Moved 0 dy) (simplifyEdge m ps s) (simplifyEdge m qs s) :=
  sameUpTo_of_rrel (simplifyEdge_rel (moved_keeps m dy) h s)

theorem wrap_neg_natAbs (z : Int) : (wrap64 (-z)).natAbs = (wrap64 z).natAbs := by
  unfold wrap64; omega

theorem mirrored_keeps (m : Build) (h : Int) :
    KeepsWeights m (fun p q => Mirrored h p q ∧ (m = .release ∨ (Small p ∧ Small q))) where
  equal := by
    rintro a b c d ⟨⟨h1, h2⟩, _⟩ ⟨⟨h3, h4⟩, _⟩
    constructor
    · rintro rfl
      have e1 : b.x = d.x := h1.symm.trans h3
      have e2 : b.y = d.y := UInt32.toNat_inj.mp (by omega)
      cases b; cases d; cases e1; cases e2; rfl
    · rintro rfl
      have e1 : a.x = c.x := h1.trans h3.symm
      have e2 : a.y = c.y := UInt32.toNat_inj.mp (by omega)
      cases a; cases c; cases e1; cases e2; rfl
  weight := by
    rintro a b c a' b' c' ⟨ha, sa⟩ ⟨hb, sb⟩ ⟨hc, sc⟩
    have total : ∀ {a b c : Point}, (m = .release ∨ Small a) → (m = .release ∨ Small b) → (m = .release ∨ Small c) →
        ∃ w, triWeight m a b c = .ok w := by
      intro a b c h1 h2 h3
      cases hw : triWeight m a b c with
      | ok w => exact ⟨w, rfl⟩
      | error e =>
        obtain ⟨rfl, _⟩ := triWeight_error hw
        obtain ⟨w, hw'⟩ := small_ok (m := .debug) (a := a) (b := b) (c := c) (h1.resolve_left (by simp))
          (h2.resolve_left (by simp)) (h3.resolve_left (by simp))
        rw [hw'] at hw; cases hw
    have l : ∀ {p q : Point}, (m = .release ∨ (Small p ∧ Small q)) → m = .release ∨ Small p :=
      fun h => h.imp_right And.left
    have r : ∀ {p q : Point}, (m = .release ∨ (Small p ∧ Small q)) → m = .release ∨ Small q :=
      fun h => h.imp_right And.right
    obtain ⟨w, hw⟩ := total (l sa) (l sb) (l sc)
    obtain ⟨w', hw'⟩ := total (r sa) (r sb) (r sc)
    have ew := triWeight_ok hw
    have ew' := triWeight_ok hw'
    rw [hw, hw']
    suffices w = w' from congrArg Except.ok this
    rw [ew, ew']
    clear ew ew' hw hw' total
    unfold weightOf
    have xa : a'.xi = a.xi := by unfold Point.xi; rw [ha.1]
    have xb : b'.xi = b.xi := by unfold Point.xi; rw [hb.1]
    have xc : c'.xi = c.xi := by unfold Point.xi; rw [hc.1]
    have y1 : c'.yi - a'.yi = -(c.yi - a.yi) := by unfold Point.yi; have := hc.2; have := ha.2; omega
    have y2 : b'.yi - a'.yi = -(b.yi - a.yi) := by unfold Point.yi; have := hb.2; have := ha.2; omega
    rw [xa, xb, xc, y1, y2, ← wrap_neg_natAbs]
    congr 2
    ring

theorem forall₂_and_mem {α β : Type} {r s : α → β → Prop} {l : List α} {k : List β} (h : List.Forall₂ r l k)
    (hs : ∀ a ∈ l, ∀ b ∈ k, s a b) : List.Forall₂ (fun a b => r a b ∧ s a b) l k := by
  induction h with
  | nil => exact .nil
  | cons hr _ ih =>
    exact .cons ⟨hr, hs _ (by simp) _ (by simp)⟩ (ih fun a ha b hb => hs a (by simp [ha]) b (by simp [hb]))

/-- C84: an edge that is turned upside down is simplified in the same way, in
release builds, and in checked builds if the coordinates are small. -/
theorem C84_mirror (m : Build) (h : Int) (ps qs : List Point) (s : Nat) (hm : List.Forall₂ (Mirrored h) ps qs)
    (hs : m = .release ∨ ((∀ p ∈ ps, Small p) ∧ ∀ q ∈ qs, Small q)) :
    SameUpTo (Mirrored h) (simplifyEdge m ps s) (simplifyEdge m qs s) := by
  have h1 : List.Forall₂ (fun p q => Mirrored h p q ∧ (m = .release ∨ (Small p ∧ Small q))) ps qs :=
    forall₂_and_mem hm fun p hp q hq => hs.imp_right fun h => ⟨h.1 p hp, h.2 q hq⟩
  rcases sameUpTo_of_rrel (simplifyEdge_rel (mirrored_keeps m h) h1 s) with ⟨a, b, e1, e2, e3⟩ | h
  · exact .inl ⟨a, b, e1, e2, e3.imp fun _ _ h => h.1⟩
  · exact .inr h

theorem simplify_sameMapUpTo {δ : Type} {T : Point → Point → Prop} (m : Build) (s : Nat) (t u : Topology δ)
    (hT : ∀ e ∈ t.edges, ∀ f ∈ u.edges, List.Forall₂ T e.points f.points →
      SameUpTo T (simplifyEdge m e.points s) (simplifyEdge m f.points s))
    (h : SameMapUpTo T (.ok t) (.ok u)) : SameMapUpTo T (simplify m t s) (simplify m u s) := by
  have key : ∀ (es fs : List TopoEdge), List.Forall₂ (fun (e f : TopoEdge) => List.Forall₂ T e.points f.points ∧
      e.ring0 = f.ring0 ∧ e.ring1 = f.ring1) es fs →
      (∀ e ∈ es, ∀ f ∈ fs, List.Forall₂ T e.points f.points →
        SameUpTo T (simplifyEdge m e.points s) (simplifyEdge m f.points s)) →
      (∃ es' fs', simplifyEdges m s es = .ok es' ∧ simplifyEdges m s fs = .ok fs' ∧
        List.Forall₂ (fun (e f : TopoEdge) => List.Forall₂ T e.points f.points ∧ e.ring0 = f.ring0 ∧ e.ring1 = f.ring1) es' fs') ∨
      ∃ e, simplifyEdges m s es = .error e ∧ simplifyEdges m s fs = .error e := by
    intro es fs hef
    induction hef with
    | nil => exact fun _ => .inl ⟨[], [], rfl, rfl, .nil⟩
    | @cons e0 f0 es0 fs0 h1 _ ih =>
      intro hs
      rcases hs e0 (by simp) f0 (by simp) h1.1 with ⟨a, b, e1, e2, e3⟩ | ⟨e, e1, e2⟩
      · rcases ih (fun e he f hf => hs e (by simp [he]) f (by simp [hf])) with ⟨es', fs', h2, h3, h4⟩ | ⟨e, h2, h3⟩
        · refine .inl ⟨{ e0 with points := a } :: es', { f0 with points := b } :: fs', ?_, ?_, .cons ⟨e3, h1.2.1, h1.2.2⟩ h4⟩
          · rw [simplifyEdges, e1, ok_bind, h2, ok_bind]
          · rw [simplifyEdges, e2, ok_bind, h3, ok_bind]
        · refine .inr ⟨e, ?_, ?_⟩
          · rw [simplifyEdges, e1, ok_bind, h2]; rfl
          · rw [simplifyEdges, e2, ok_bind, h3]; rfl
      · refine .inr ⟨e, ?_, ?_⟩
        · rw [simplifyEdges, e1]; rfl
        · rw [simplifyEdges, e2]; rfl
  rcases h with ⟨t0, u0, ht, hu, hr, he⟩ | ⟨e, ht, _⟩
  · obtain rfl := Except.ok.inj ht
    obtain rfl := Except.ok.inj hu
    rcases key _ _ he hT with ⟨es, fs, h1, h2, h3⟩ | ⟨e, h1, h2⟩
    · refine .inl ⟨{ t with edges := es }, { u with edges := fs }, ?_, ?_, hr, h3⟩
      · unfold simplify; rw [h1, ok_bind]
      · unfold simplify; rw [h2, ok_bind]
    · refine .inr ⟨e, ?_, ?_⟩
      · unfold simplify; rw [h1]; rfl
      · unfold simplify; rw [h2]; rfl
  · cases ht

/-- C84: the same for all the edges of a topology that is moved up or down, panics
included. -/
theorem C84_topology {δ : Type} (m : Build) (dy : Int) (t u : Topology δ) (s : Nat)
    (h : SameMapUpTo (Moved 0 dy) (.ok t) (.ok u)) : SameMapUpTo (Moved 0 dy) (simplify m t s) (simplify m u s) :=
  simplify_sameMapUpTo m s t u (fun _ _ _ _ h => C84_vertical m dy _ _ s h) h

/-- C84: and for a topology that is turned upside down. -/
theorem C84_topology_mirror {δ : Type} (m : Build) (a : Int) (t u : Topology δ) (s : Nat)
    (h : SameMapUpTo (Mirrored a) (.ok t) (.ok u))
    (hs : m = .release ∨ ∀ e ∈ t.edges ++ u.edges, ∀ p ∈ e.points, Small p) :
    SameMapUpTo (Mirrored a) (simplify m t s) (simplify m u s) :=
  simplify_sameMapUpTo m s t u (fun e he f hf h => C84_mirror m a _ _ s h
    (hs.imp_right fun k => ⟨k e (by simp [he]), k f (by simp [hf])⟩)) h

/-- Non-vacuity: a corner, moved down by 5, and mirrored at y = 1. -/
example : List.Forall₂ (Moved 0 5) [⟨1, 0⟩, ⟨2, 2⟩, ⟨3, 0⟩] [⟨1, 5⟩, ⟨2, 7⟩, ⟨3, 5⟩] ∧
    List.Forall₂ (Mirrored 2) [⟨1, 0⟩, ⟨2, 2⟩, ⟨3, 0⟩] [⟨1, 2⟩, ⟨2, 0⟩, ⟨3, 2⟩] ∧
    simplifyEdge .debug [⟨1, 0⟩, ⟨2, 2⟩, ⟨3, 0⟩] 5 = .ok [⟨1, 0⟩, ⟨3, 0⟩] ∧
    simplifyEdge .debug [⟨1, 5⟩, ⟨2, 7⟩, ⟨3, 5⟩] 5 = .ok [⟨1, 5⟩, ⟨3, 5⟩] := by
  refine ⟨.cons ⟨by decide, by decide⟩ (.cons ⟨by decide, by decide⟩ (.cons ⟨by decide, by decide⟩ .nil)),
    .cons ⟨by decide, by decide⟩ (.cons ⟨by decide, by decide⟩ (.cons ⟨by decide, by decide⟩ .nil)),
    by decide +kernel, by decide +kernel⟩

/-- Non-vacuity: a topology, moved down by 5, and mirrored at y = 1; it is not what it
was after simplifying. -/
example : ∃ t u v t' : Topology Nat, SameMapUpTo (Moved 0 5) (.ok t) (.ok u) ∧ SameMapUpTo (Mirrored 2) (.ok t) (.ok v) ∧
    (∀ e ∈ t.edges ++ v.edges, ∀ p ∈ e.points, Small p) ∧ simplify .debug t 5 = .ok t' ∧ t' ≠ t :=
  ⟨⟨[], [⟨[⟨1, 0⟩, ⟨2, 2⟩, ⟨3, 0⟩], none, none⟩]⟩, ⟨[], [⟨[⟨1, 5⟩, ⟨2, 7⟩, ⟨3, 5⟩], none, none⟩]⟩,
    ⟨[], [⟨[⟨1, 2⟩, ⟨2, 0⟩, ⟨3, 2⟩], none, none⟩]⟩, ⟨[], [⟨[⟨1, 0⟩, ⟨3, 0⟩], none, none⟩]⟩,
    .inl ⟨_, _, rfl, rfl, rfl, .cons ⟨.cons ⟨by decide, by decide⟩ (.cons ⟨by decide, by decide⟩
      (.cons ⟨by decide, by decide⟩ .nil)), rfl, rfl⟩ .nil⟩,
    .inl ⟨_, _, rfl, rfl, rfl, .cons ⟨.cons ⟨by decide, by decide⟩ (.cons ⟨by decide, by decide⟩
      (.cons ⟨by decide, by decide⟩ .nil)), rfl, rfl⟩ .nil⟩,
    by simp only [Small]; decide, by decide +kernel, by decide⟩

/-- C84, refuted for moves to the side: a straight line on the left border loses
its middle at threshold 1; one unit further to the right it does not. -/
theorem C84_horizontal_refuted : ∃ ps qs s out, List.Forall₂ (Moved 1 0) ps qs ∧ simplifyEdge .debug ps s = .ok out ∧
    out ≠ ps ∧ simplifyEdge .debug qs s = .ok qs :=
  ⟨[⟨0, 2⟩, ⟨0, 1⟩, ⟨0, 0⟩], [⟨1, 2⟩, ⟨1, 1⟩, ⟨1, 0⟩], 1, [⟨0, 2⟩, ⟨0, 0⟩],
    .cons ⟨by decide, by decide⟩ (.cons ⟨by decide, by decide⟩ (.cons ⟨by decide, by decide⟩ .nil)),
    by decide +kernel, by decide, by decide +kernel⟩

/-- C84, refuted for the direction: what is dropped from a line depends on the end
it starts from. -/
theorem C84_reversal_refuted : ∃ ps s out, simplifyEdge .debug ps s = .ok out ∧ out ≠ ps ∧
    simplifyEdge .debug ps.reverse s = .ok ps.reverse :=
  ⟨[⟨1, 1⟩, ⟨0, 1⟩, ⟨0, 0⟩], 1, [⟨1, 1⟩, ⟨0, 0⟩], by decide +kernel, by decide, by decide +kernel⟩

/-- C84, refuted for the axes: exchanging x and y changes the result. -/
theorem C84_axes_refuted : ∃ ps s out, simplifyEdge .debug ps s = .ok ps ∧
    simplifyEdge .debug (ps.map swapAxes) s = .ok out ∧ out ≠ ps.map swapAxes :=
  ⟨[⟨1, 0⟩, ⟨0, 1⟩, ⟨0, 0⟩], 1, [⟨0, 1⟩, ⟨0, 0⟩], by decide +kernel, by decide +kernel, by decide⟩

/-! ## C85 -/

/-- A path that turns a right angle at the top: along the upper border, then down. -/
def rightAngle (k : UInt32) : List Point := [⟨0, 0⟩, ⟨k, 0⟩, ⟨k, k⟩]

/-- A straight line downwards in column `k`. -/
def straightDown (k : UInt32) : List Point := [⟨k, 0⟩, ⟨k, 1⟩, ⟨k, 2⟩]

/-- C85: the threshold does not bound the change. At threshold 1, "at most one
pixel", a triangle of any size is cut off: twice its area is `k * k`. -/
theorem C85_unbounded (m : Build) (k : UInt32) (h0 : 0 < k.toNat) (hk : m = .release ∨ k.toNat < 2 ^ 21) :
    simplifyEdge m (rightAngle k) 1 = .ok [⟨0, 0⟩, ⟨k, k⟩] ∧
    shoelace (rightAngle k ++ [⟨0, 0⟩]) = k.toNat * k.toNat ∧ shoelace [⟨0, 0⟩, ⟨k, k⟩, ⟨0, 0⟩] = 0 := by
  have hne : (⟨0, 0⟩ : Point) ≠ ⟨k, k⟩ := by
    intro h
    have := congrArg (fun p : Point => p.x.toNat) h
    simp at this
    omega
  refine ⟨?_, ?_, ?_⟩
  · have hs : Simplifiable (rightAngle k) := ⟨by simp [rightAngle], fun h => absurd h (by simpa [rightAngle] using hne)⟩
    have hex : ∃ out, simplifyEdge m (rightAngle k) 1 = .ok out := by
      rcases hk with rfl | hk
      · exact (C40_release _ 1 (by decide)).mpr hs
      · cases m with
        | release => exact (C40_release _ 1 (by decide)).mpr hs
        | debug =>
          refine C40_debug _ 1 (by decide) hs ?_
          intro p hp
          simp only [rightAngle, List.mem_cons, List.not_mem_nil, or_false] at hp
          rcases hp with rfl | rfl | rfl
          · exact ⟨by decide, by decide⟩
          · exact ⟨hk, show (0 : UInt32).toNat < 2 ^ 21 by decide⟩
          · exact ⟨hk, hk⟩
    obtain ⟨out, ho⟩ := hex
    obtain ⟨h1, _⟩ := C73_ends m (rightAngle k) out 1 (by decide) (by
      intro i j l a b c hij hjl ha hb hc
      have hl : l < 3 := by
        have := List.getElem?_eq_some_iff.mp hc
        exact this.1
      obtain rfl : i = 0 := by omega
      obtain rfl : j = 1 := by omega
      obtain rfl : l = 2 := by omega
      simp only [rightAngle, List.getElem?_cons_zero, List.getElem?_cons_succ, Option.some.injEq] at ha hb hc
      subst ha; subst hb; subst hc
      simp [weightOf, Point.xi, Point.yi, wrap64]) ho
    obtain ⟨a, z, e1, e2, e3⟩ := h1 (by simpa [rightAngle] using hne)
    simp only [rightAngle, List.head?_cons, Option.some.injEq] at e1
    have e2 : z = ⟨k, k⟩ := by simpa [rightAngle] using e2.symm
    rw [ho, e3, ← e1, e2]
  · simp [rightAngle, shoelace, cross]
  · simp [shoelace, cross]

/-- C85: nor are points without any effect dropped: the middle of a straight line
stays at every threshold up to `2 * k * k`. -/
theorem C85_straight (m : Build) (k : UInt32) (s : Nat) (hk : k.toNat < 2 ^ 21) (hs : s ≤ 2 * k.toNat * k.toNat) :
    simplifyEdge m (straightDown k) s = .ok (straightDown k) ∧ triangleArea2 ⟨k, 0⟩ ⟨k, 1⟩ ⟨k, 2⟩ = 0 := by
  have hb : 2 * k.toNat * k.toNat < 2 ^ 43 := by
    have : 2 * k.toNat * k.toNat ≤ 2 * (2 ^ 21 - 1) * (2 ^ 21 - 1) :=
      Nat.mul_le_mul (Nat.mul_le_mul_left _ (by omega)) (by omega)
    omega
  have hmax : s ≤ u64Max := by unfold u64Max; omega
  have hsim : Simplifiable (straightDown k) := ⟨by simp [straightDown], fun h => absurd h (by simp [straightDown])⟩
  have hex : ∃ out, simplifyEdge m (straightDown k) s = .ok out := by
    cases m with
    | release => exact (C40_release _ s hmax).mpr hsim
    | debug =>
      refine C40_debug _ s hmax hsim ?_
      intro p hp
      simp only [straightDown, List.mem_cons, List.not_mem_nil, or_false] at hp
      rcases hp with rfl | rfl | rfl
      · exact ⟨hk, show (0 : UInt32).toNat < 2 ^ 21 by decide⟩
      · exact ⟨hk, show (1 : UInt32).toNat < 2 ^ 21 by decide⟩
      · exact ⟨hk, show (2 : UInt32).toNat < 2 ^ 21 by decide⟩
  obtain ⟨out, ho⟩ := hex
  constructor
  · rw [ho]
    congr 1
    refine C41_unchanged m _ out s hmax ?_ ho
    intro i a b c ha hb' hc
    have hl : i + 2 < 3 := by
      have := List.getElem?_eq_some_iff.mp hc
      exact this.1
    obtain rfl : i = 0 := by omega
    simp only [straightDown, List.getElem?_cons_zero, List.getElem?_cons_succ, Option.some.injEq] at ha hb' hc
    subst ha; subst hb'; subst hc
    have e : weightOf ⟨k, 0⟩ ⟨k, 1⟩ ⟨k, 2⟩ = (wrap64 ((k.toNat : Int) * k.toNat * 2)).natAbs := by
      simp [weightOf, Point.xi, Point.yi]
    have e' : (k.toNat : Int) * k.toNat * 2 = ((2 * k.toNat * k.toNat : Nat) : Int) := by push_cast; ring
    rw [e, e', wrap64_of_inI64]
    · omega
    · unfold InI64; omega
  · simp [triangleArea2, Point.xi, Point.yi]

/-- C85: simplifying again with the same threshold can drop more. -/
theorem C85_idempotent_refuted : ∃ ps s out out', simplifyEdge .debug ps s = .ok out ∧
    simplifyEdge .debug out s = .ok out' ∧ out' ≠ out :=
  ⟨[⟨0, 2⟩, ⟨1, 2⟩, ⟨1, 0⟩, ⟨0, 1⟩, ⟨0, 0⟩], 1, [⟨0, 2⟩, ⟨0, 1⟩, ⟨0, 0⟩], [⟨0, 2⟩, ⟨0, 0⟩], by decide +kernel,
    by decide +kernel, by decide⟩

/-- C85: a further round with the same threshold changes nothing or drops points,
so repeating comes to rest. -/
theorem C85_settles (m : Build) (ps out out' : List Point) (s : Nat) (hs : s ≤ u64Max) (h : simplifyEdge m ps s = .ok out)
    (h' : simplifyEdge m out s = .ok out') : out' = out ∨ (out'.length < out.length ∧ out.length ≤ ps.length) := by
  obtain ⟨h1, _⟩ := C38_subsequence m ps out s hs h
  obtain ⟨h2, _⟩ := C38_subsequence m out out' s hs h'
  by_cases he : out' = out
  · exact .inl he
  · refine .inr ⟨?_, h1.length_le⟩
    rcases h2.length_le.lt_or_eq with hl | hl
    · exact hl
    · exact absurd (h2.eq_of_length hl) he

example : simplifyEdge .debug (rightAngle 2000000) 1 = .ok [⟨0, 0⟩, ⟨2000000, 2000000⟩] ∧
    simplifyEdge .debug (straightDown 2000000) 8000000000000 = .ok (straightDown 2000000) := by
  unfold rightAngle straightDown
  decide +kernel

end TopoGeo
