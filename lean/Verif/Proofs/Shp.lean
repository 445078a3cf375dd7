import Verif.Proofs.Io
import Verif.Spec.Shp
/-!
# Lemmas about .shp files
-/

namespace TopoGeo

open Spec

/-! ## Numbers -/

theorem leBytes_leNat (bs : Bytes) : leBytes bs.length (leNat bs) = bs := by
  induction bs with
  | nil => rfl
  | cons b bs ih =>
    have hb := b.toNat_lt
    simp only [List.length_cons, leBytes, leNat]
    have h1 : (b.toNat + 256 * leNat bs) % 256 = b.toNat := by omega
    have h2 : (b.toNat + 256 * leNat bs) / 256 = leNat bs := by omega
    rw [h1, h2, ih]
    congr 1
    simp

theorem leBytes_leNat' {k : Nat} {bs : Bytes} (h : bs.length = k) : leBytes k (leNat bs) = bs := by
  subst h; exact leBytes_leNat bs

theorem beBytes_beNat {k : Nat} {bs : Bytes} (h : bs.length = k) : beBytes k (beNat bs) = bs := by
  unfold beBytes beNat
  rw [leBytes_leNat' (by simpa using h), List.reverse_reverse]

theorem u32le_lt (bs : Bytes) (i : Nat) : u32le bs i < 2 ^ 32 := by
  unfold u32le
  calc leNat ((bs.drop i).take 4) < 256 ^ ((bs.drop i).take 4).length := leNat_lt _
    _ ≤ 256 ^ 4 := Nat.pow_le_pow_right (by omega) (by simp)

theorem u32be_lt (bs : Bytes) (i : Nat) : u32be bs i < 2 ^ 32 := by
  unfold u32be beNat
  calc leNat ((bs.drop i).take 4).reverse < 256 ^ ((bs.drop i).take 4).reverse.length := leNat_lt _
    _ ≤ 256 ^ 4 := Nat.pow_le_pow_right (by omega) (by simp)

theorem u32leAt_ok {bs : Bytes} {i j : Nat} (hj : i + 4 = j) (h : j ≤ bs.length) : u32leAt bs i j = .ok (u32le bs i) := by
  unfold u32leAt u32le
  rw [slice_ok (by omega) h, ok_bind, readLE_ok (by simp; omega)]
  subst hj
  rw [Nat.add_sub_cancel_left]

theorem u32beAt_ok {bs : Bytes} {i j : Nat} (hj : i + 4 = j) (h : j ≤ bs.length) : u32beAt bs i j = .ok (u32be bs i) := by
  unfold u32beAt u32be
  rw [slice_ok (by omega) h, ok_bind, readBE_ok (by simp; omega)]
  subst hj
  rw [Nat.add_sub_cancel_left]

theorem u32leAt_error {bs : Bytes} {i j : Nat} (h : bs.length < j) : u32leAt bs i j = .error .index := by
  unfold u32leAt
  rw [slice_error h]
  rfl

theorem f64At_ok {bs : Bytes} {i j : Nat} (hj : i + 8 = j) (h : j ≤ bs.length) : f64At bs i j = .ok (f64le bs i) := by
  unfold f64At f64le readF64
  rw [slice_ok (by omega) h, ok_bind, readLE_ok (by simp; omega), ok_bind]
  subst hj
  rw [Nat.add_sub_cancel_left]

theorem f64Bytes_length (u : UInt64) : (f64Bytes u).length = 8 := leBytes_length _ _

theorem pointBytes_length (p : ShpPoint) : (pointBytes p).length = 16 := by
  unfold pointBytes
  rw [List.length_append, f64Bytes_length, f64Bytes_length]

theorem boxBytes_length (b : ShpBoundingBox) : (boxBytes b).length = 32 := by
  unfold boxBytes
  simp [f64Bytes_length]

theorem f64Bytes_ofNat {bs : Bytes} (h : bs.length = 8) : f64Bytes (UInt64.ofNat (leNat bs)) = bs := by
  unfold f64Bytes
  have h1 := leNat_lt bs
  rw [h] at h1
  have : (UInt64.ofNat (leNat bs)).toNat = leNat bs := by
    rw [UInt64.toNat_ofNat']
    exact Nat.mod_eq_of_lt h1
  rw [this, leBytes_leNat' h]

theorem ofNat_f64Bytes (u : UInt64) : UInt64.ofNat (leNat (f64Bytes u)) = u := by
  unfold f64Bytes
  rw [leNat_leBytes (k := 8) u.toNat_lt]
  simp

/-! ## Points and parts -/

/-- The point in 16 bytes. -/
def pointOf (c : Bytes) : ShpPoint := ⟨f64le c 0, f64le c 8⟩

theorem parsePoint_ok {c : Bytes} (h : c.length = 16) : parsePoint c = .ok (pointOf c) := by
  unfold parsePoint
  rw [f64At_ok rfl (by omega), ok_bind, f64At_ok rfl (by omega), ok_bind]
  rfl

theorem pointBytes_pointOf {c : Bytes} (h : c.length = 16) : pointBytes (pointOf c) = c := by
  unfold pointBytes pointOf f64le
  rw [f64Bytes_ofNat (by simp; omega), f64Bytes_ofNat (by simp; omega), List.drop_zero]
  have : (c.drop 8).take 8 = c.drop 8 := List.take_of_length_le (by simp; omega)
  rw [this, List.take_append_drop]

theorem pointBytes_inj {p q : ShpPoint} (h : pointBytes p = pointBytes q) : p = q := by
  have h1 := List.append_inj h (by rw [f64Bytes_length, f64Bytes_length])
  cases p with | mk px py => cases q with | mk qx qy =>
  have hx := congrArg (fun l => UInt64.ofNat (leNat l)) h1.1
  have hy := congrArg (fun l => UInt64.ofNat (leNat l)) h1.2
  simp only [ofNat_f64Bytes] at hx hy
  rw [hx, hy]

theorem parsePoints_ok {cs : List Bytes} (h : ∀ c ∈ cs, c.length = 16) : parsePoints cs = .ok (cs.map pointOf) := by
  induction cs with
  | nil => rfl
  | cons c cs ih =>
    rw [parsePoints, parsePoint_ok (h c (by simp)), ok_bind, ih fun x hx => h x (by simp [hx]), ok_bind]
    rfl

theorem parseParts_ok {cs : List Bytes} (h : ∀ c ∈ cs, c.length = 4) : parseParts cs = .ok (cs.map leNat) := by
  induction cs with
  | nil => rfl
  | cons c cs ih =>
    rw [parseParts, readLE_ok (h c (by simp)), ok_bind, ih fun x hx => h x (by simp [hx]), ok_bind]
    rfl

theorem chunks_all {k n : Nat} (hk : 0 < k) {l : Bytes} (h : l.length = k * n) : ∀ c ∈ chunks k l, c.length = k := by
  intro c hc
  rw [chunks_wholes hk h] at hc
  exact wholes_length hk hc

theorem flatten_chunks {k n : Nat} (hk : 0 < k) {l : Bytes} (h : l.length = k * n) : (chunks k l).flatten = l := by
  induction n generalizing l with
  | zero =>
    have : l = [] := by simpa using h
    subst this
    rfl
  | succ n ih =>
    rw [Nat.mul_succ] at h
    rw [chunks_cons hk (by intro h0; subst h0; simp at h; omega), List.flatten_cons, ih (l := l.drop k) (by simp; omega),
      List.take_append_drop]

theorem length_chunks {k n : Nat} (hk : 0 < k) {l : Bytes} (h : l.length = k * n) : (chunks k l).length = n := by
  rw [chunks_wholes hk h]
  unfold wholes
  rw [List.length_map, List.length_range, h, Nat.mul_div_cancel_left _ hk]

theorem flatMap_pointBytes {l : Bytes} {n : Nat} (h : l.length = 16 * n) :
    ((chunks 16 l).map pointOf).flatMap pointBytes = l := by
  rw [List.flatMap_def, List.map_map]
  have : (chunks 16 l).map (pointBytes ∘ pointOf) = chunks 16 l := by
    conv_rhs => rw [← List.map_id (chunks 16 l)]
    apply List.map_congr_left
    intro c hc
    exact pointBytes_pointOf (chunks_all (by omega) h c hc)
  rw [this, flatten_chunks (by omega) h]

theorem flatMap_pointBytes_inj {ps qs : List ShpPoint} (h : ps.flatMap pointBytes = qs.flatMap pointBytes) : ps = qs := by
  have h1 : ∀ rs : List ShpPoint, chunks 16 (rs.flatMap pointBytes) = rs.map pointBytes := by
    intro rs
    rw [List.flatMap_def]
    apply chunks_flatten (by omega)
    intro l hl
    obtain ⟨p, _, rfl⟩ := List.mem_map.mp hl
    exact pointBytes_length p
  have h2 := congrArg (chunks 16) h
  rw [h1, h1] at h2
  exact List.map_injective_iff.mpr (fun p q hpq => pointBytes_inj hpq) h2

theorem flatMap_pointBytes_length (ps : List ShpPoint) : (ps.flatMap pointBytes).length = 16 * ps.length := by
  induction ps with
  | nil => rfl
  | cons p ps ih =>
    rw [List.flatMap_cons, List.length_append, pointBytes_length, ih, List.length_cons]
    omega

theorem flatMap_leBytes_length (ns : List Nat) : (ns.flatMap (leBytes 4)).length = 4 * ns.length := by
  induction ns with
  | nil => rfl
  | cons p ps ih =>
    rw [List.flatMap_cons, List.length_append, leBytes_length, ih, List.length_cons]
    omega

theorem partOffsets_eq {bs : Bytes} (h : 44 + 4 * u32le bs 36 ≤ bs.length) :
    (chunks 4 ((bs.drop 44).take (4 * u32le bs 36))).map leNat = partOffsets bs := by
  have hl : ((bs.drop 44).take (4 * u32le bs 36)).length = 4 * u32le bs 36 := by simp; omega
  rw [chunks_wholes (by omega) hl]
  unfold wholes partOffsets
  rw [hl, Nat.mul_div_cancel_left _ (by omega), List.map_map]
  apply List.map_congr_left
  intro i hi
  rw [List.mem_range] at hi
  simp only [Function.comp, u32le]
  congr 1
  rw [List.drop_take, List.take_take, List.drop_drop]
  congr 1
  unfold u32le at hi
  omega

/-! ## Cutting -/

theorem cuts_chain {points : List ShpPoint} {parts : List Nat} {rings : List ShpPolygonRing} (h : Cuts points parts rings) :
    List.IsChain (Follows points.length) parts ∧ ∃ last, parts.getLast? = some last ∧ last + 4 ≤ points.length := by
  induction h with
  | last a ring rest h1 h2 h3 =>
    refine ⟨List.IsChain.singleton _, a, rfl, ?_⟩
    subst h1 h2
    simp
    omega
  | more a b parts rings before ring after h1 h2 h3 h4 _ ih =>
    obtain ⟨ih1, last, ih2, ih3⟩ := ih
    refine ⟨List.isChain_cons_cons.mpr ⟨⟨by omega, ?_⟩, ih1⟩, last, ?_, ih3⟩
    · subst h1 h3; simp
    · rw [List.getLast?_cons_cons]; exact ih2

theorem cuts_exists {points : List ShpPoint} {parts : List Nat} (h : List.IsChain (Follows points.length) parts) {last : Nat}
    (hl : parts.getLast? = some last) (h4 : last + 4 ≤ points.length) : ∃ rings, Cuts points parts rings := by
  induction parts with
  | nil => simp at hl
  | cons a parts ih =>
    cases parts with
    | nil =>
      have : a = last := by simpa using hl
      subst this
      exact ⟨_, .last a (points.drop a) (points.take a) (List.take_append_drop _ _).symm (by simp; omega) (by simp; omega)⟩
    | cons b parts =>
      obtain ⟨h1, h2⟩ := List.isChain_cons_cons.mp h
      obtain ⟨h3, h5⟩ := h1
      rw [List.getLast?_cons_cons] at hl
      obtain ⟨rings, hr⟩ := ih h2 hl
      refine ⟨_, .more a b parts rings (points.take a) ((points.drop a).take (b - a)) ((points.drop a).drop (b - a))
        ?_ (by simp; omega) (by simp; omega) (by simp; omega) hr⟩
      rw [List.append_assoc, List.take_append_drop, List.take_append_drop]

theorem cuts_unique {points : List ShpPoint} {parts : List Nat} {rings rings' : List ShpPolygonRing}
    (h : Cuts points parts rings) (h' : Cuts points parts rings') : rings = rings' := by
  induction h generalizing rings' with
  | last a ring rest h1 h2 h3 =>
    cases h' with
    | last _ ring' rest' h1' h2' h3' =>
      subst h1
      have := List.append_inj h1' (by omega)
      rw [this.2]
  | more a b parts rings before ring after h1 h2 h3 h4 _ ih =>
    cases h' with
    | more _ _ _ rings' before' ring' after' h1' h2' h3' h4' h5' =>
      rw [ih h5']
      subst h1
      have h6 := List.append_inj h1' (by simp; omega)
      have h7 := List.append_inj h6.1 (by omega)
      rw [h7.2]

/-- The windows of a chain are cut without an error. -/
theorem cutRings_chain {points : List ShpPoint} (number : Nat) {parts : List Nat} {rings : List ShpPolygonRing}
    (h : Cuts points parts rings) (acc : List ShpPolygonRing) :
    ∃ init last, rings = init ++ [points.drop last] ∧ parts.getLast? = some last ∧
      cutRings number points acc (tupleWindows parts) = .ok (.ok (acc ++ init)) := by
  induction h generalizing acc with
  | last a ring rest h1 h2 h3 =>
    refine ⟨[], a, ?_, rfl, by simp [tupleWindows, cutRings]⟩
    subst h1
    rw [List.drop_left' h2]
    rfl
  | more a b parts rings before ring after h1 h2 h3 h4 _ ih =>
    obtain ⟨init, last, e1, e2, e3⟩ := ih (acc ++ [ring])
    refine ⟨ring :: init, last, by rw [e1]; rfl, by rw [List.getLast?_cons_cons]; exact e2, ?_⟩
    rw [tupleWindows, cutRings]
    have hl : points.length = before.length + ring.length + after.length := by subst h1; simp; omega
    rw [if_neg (by omega), if_neg (by omega), slice_middle h1 h2 h3, ok_bind, e3, List.append_assoc]
    rfl

theorem tupleWindows_append {α : Type} (before : List α) (a : α) (after : List α) :
    tupleWindows (before ++ a :: after) = tupleWindows (before ++ [a]) ++ tupleWindows (a :: after) := by
  induction before with
  | nil => simp [tupleWindows]
  | cons x before ih =>
    cases before with
    | nil => cases after <;> simp [tupleWindows]
    | cons y before =>
      simp only [List.cons_append, tupleWindows] at ih ⊢
      rw [ih]

/-- Cutting reaches what follows a chain. -/
theorem cutRings_prefix {points : List ShpPoint} (number : Nat) {parts : List Nat} (h : List.IsChain (Follows points.length) parts)
    (rest : List (Nat × Nat)) (acc : List ShpPolygonRing) :
    ∃ acc', cutRings number points acc (tupleWindows parts ++ rest) = cutRings number points acc' rest := by
  induction parts generalizing acc with
  | nil => exact ⟨acc, rfl⟩
  | cons a parts ih =>
    cases parts with
    | nil => exact ⟨acc, rfl⟩
    | cons b parts =>
      obtain ⟨h1, h2⟩ := List.isChain_cons_cons.mp h
      obtain ⟨h3, h5⟩ := h1
      obtain ⟨acc', e⟩ := ih h2 (acc ++ [(points.drop a).take (b - a)])
      refine ⟨acc', ?_⟩
      rw [tupleWindows, List.cons_append, cutRings, if_neg (by omega), if_neg (by omega), slice_ok (by omega) h5, ok_bind, e]

/-- Either a chain, or a first pair that does not follow. -/
theorem chain_or (n : Nat) (parts : List Nat) : List.IsChain (Follows n) parts ∨
    ∃ before a b after, parts = before ++ a :: b :: after ∧ List.IsChain (Follows n) (before ++ [a]) ∧ ¬ Follows n a b := by
  induction parts with
  | nil => exact Or.inl .nil
  | cons a parts ih =>
    cases parts with
    | nil => exact Or.inl (.singleton _)
    | cons b parts =>
      by_cases hf : Follows n a b
      · rcases ih with ih | ⟨before, c, d, after, e1, e2, e3⟩
        · exact Or.inl (List.isChain_cons_cons.mpr ⟨hf, ih⟩)
        · refine Or.inr ⟨a :: before, c, d, after, by rw [e1]; rfl, ?_, e3⟩
          cases before with
          | nil =>
            simp only [List.nil_append, List.cons.injEq] at e1
            obtain ⟨rfl, _⟩ := e1
            exact List.isChain_cons_cons.mpr ⟨hf, .singleton _⟩
          | cons x before =>
            simp only [List.cons_append, List.cons.injEq] at e1
            obtain ⟨rfl, _⟩ := e1
            exact List.isChain_cons_cons.mpr ⟨hf, e2⟩
      · exact Or.inr ⟨[], a, b, parts, rfl, .singleton _, hf⟩

/-! ## Records -/

/-- What is left of reading a content that has the announced length. -/
theorem parsePolygonRecord_body {bs : Bytes} (number : Nat) (h5 : u32le bs 0 = 5) (hp : u32le bs 36 ≠ 0)
    (hl : bs.length = neededLength bs) :
    ∃ points, points.length = u32le bs 40 ∧ bs.drop (44 + 4 * u32le bs 36) = points.flatMap pointBytes ∧
      ∃ last, (partOffsets bs).getLast? = some last ∧
      parsePolygonRecord bs number = (cutRings number points [] (tupleWindows (partOffsets bs))).bind fun r =>
        match r with
        | .error e => .ok (.error e)
        | .ok rings =>
          if last + 3 ≥ points.length then .ok (.error (.parse (.lastPart number last (u32le bs 40))))
          else .ok (.ok ⟨number, rings ++ [points.drop last]⟩) := by
  unfold neededLength at hl
  have hlen : (bs.drop (44 + 4 * u32le bs 36)).length = 16 * u32le bs 40 := by simp; omega
  refine ⟨(chunks 16 (bs.drop (44 + 4 * u32le bs 36))).map pointOf, ?_, (flatMap_pointBytes hlen).symm, ?_⟩
  · rw [List.length_map, length_chunks (by omega) hlen]
  · have hne : partOffsets bs ≠ [] := by
      unfold partOffsets
      simpa using hp
    refine ⟨(partOffsets bs).getLast hne, List.getLast?_eq_getLast_of_ne_nil hne, ?_⟩
    unfold parsePolygonRecord
    rw [u32leAt_ok rfl (by omega), ok_bind, if_neg (by simpa using h5), u32leAt_ok rfl (by omega), ok_bind, if_neg hp,
      u32leAt_ok rfl (by omega), ok_bind, if_neg (by omega)]
    unfold sliceFrom
    rw [if_pos (by omega), ok_bind, parsePoints_ok (chunks_all (by omega) hlen), ok_bind, slice_ok (by omega) (by omega),
      ok_bind, Nat.add_sub_cancel_left]
    rw [parseParts_ok (chunks_all (n := u32le bs 36) (by omega) (by simp; omega)), ok_bind, partOffsets_eq (by omega)]
    have hpl : ((chunks 16 (bs.drop (44 + 4 * u32le bs 36))).map pointOf).length = u32le bs 40 := by
      rw [List.length_map, length_chunks (by omega) hlen]
    generalize (chunks 16 (bs.drop (44 + 4 * u32le bs 36))).map pointOf = points at *
    rcases cutRings number points [] (tupleWindows (partOffsets bs)) with e | r
    · rfl
    · rw [ok_bind]
      rcases r with e | rings
      · rfl
      · simp only [Except.bind]
        rw [List.getLast?_eq_getLast_of_ne_nil hne]
        simp only
        split
        · rfl
        · rw [slice_ok (by omega) (by omega), ok_bind, ← hpl, ← List.length_drop, List.take_length]

theorem contentBytes_facts {box : Bytes} {parts : List Nat} {points : List ShpPoint} (hb : box.length = 32)
    (hp : parts.length < 2 ^ 32) (hq : points.length < 2 ^ 32) (hparts : ∀ a ∈ parts, a < 2 ^ 32) :
    u32le (contentBytes box parts points) 0 = 5 ∧ u32le (contentBytes box parts points) 36 = parts.length ∧
      u32le (contentBytes box parts points) 40 = points.length ∧
      (contentBytes box parts points).length = neededLength (contentBytes box parts points) ∧
      partOffsets (contentBytes box parts points) = parts ∧
      (contentBytes box parts points).drop (44 + 4 * parts.length) = points.flatMap pointBytes := by
  have e0 : (leBytes 4 5).length = 4 := rfl
  have e1 : (leBytes 4 parts.length).length = 4 := leBytes_length _ _
  have e2 : (leBytes 4 points.length).length = 4 := leBytes_length _ _
  have e3 := flatMap_leBytes_length parts
  have e4 := flatMap_pointBytes_length points
  have a1 : u32le (contentBytes box parts points) 0 = 5 := rfl
  have a2 : u32le (contentBytes box parts points) 36 = parts.length := by
    unfold u32le
    rw [show (contentBytes box parts points).drop 36 = leBytes 4 parts.length ++ (leBytes 4 points.length ++
      parts.flatMap (leBytes 4) ++ points.flatMap pointBytes) by
        unfold contentBytes
        simp only [List.append_assoc]
        rw [← List.append_assoc]
        exact List.drop_left' (by simp [e0, hb]), List.take_left' e1, leNat_leBytes (k := 4) hp]
  have a3 : u32le (contentBytes box parts points) 40 = points.length := by
    unfold u32le
    rw [show (contentBytes box parts points).drop 40 = leBytes 4 points.length ++
      (parts.flatMap (leBytes 4) ++ points.flatMap pointBytes) by
        unfold contentBytes
        rw [List.append_assoc, List.append_assoc]
        exact List.drop_left' (by simp [e0, e1, hb]), List.take_left' e2, leNat_leBytes (k := 4) hq]
  have hlen : (contentBytes box parts points).length = 44 + 4 * parts.length + 16 * points.length := by
    unfold contentBytes
    rw [List.length_append, List.length_append, List.length_append, List.length_append, List.length_append, e0, hb, e1, e2, e3, e4]
  refine ⟨a1, a2, a3, ?_, ?_, ?_⟩
  · unfold neededLength
    rw [a2, a3, hlen]
  · rw [← partOffsets_eq (by rw [a2, hlen]; omega), a2]
    have : ((contentBytes box parts points).drop 44).take (4 * parts.length) = (parts.map (leBytes 4)).flatten := by
      unfold contentBytes
      rw [List.append_assoc, List.drop_left' (by simp [e0, e1, e2, hb]), List.take_left' e3, List.flatMap_def]
    rw [this, chunks_flatten (by omega) (by intro l hl; obtain ⟨a, _, rfl⟩ := List.mem_map.mp hl; exact leBytes_length _ _),
      List.map_map]
    conv_rhs => rw [← List.map_id parts]
    apply List.map_congr_left
    intro a ha
    exact leNat_leBytes (k := 4) (hparts a ha)
  · unfold contentBytes
    exact List.drop_left' (by simp [e0, e1, e2, e3, hb]; omega)

/-- A content of the announced length is written by the writer. -/
theorem contentBytes_of {bs : Bytes} (h5 : u32le bs 0 = 5) (hl : bs.length = neededLength bs) {points : List ShpPoint}
    (hq : points.length = u32le bs 40) (hpts : bs.drop (44 + 4 * u32le bs 36) = points.flatMap pointBytes) :
    bs = contentBytes ((bs.drop 4).take 32) (partOffsets bs) points := by
  unfold neededLength at hl
  have c1 : bs.take 4 = leBytes 4 5 := by
    rw [← h5]; unfold u32le
    rw [leBytes_leNat' (by simp; omega), List.drop_zero]
  have c2 : leBytes 4 (u32le bs 36) = (bs.drop 36).take 4 := by
    unfold u32le
    exact leBytes_leNat' (by simp; omega)
  have c3 : leBytes 4 (u32le bs 40) = (bs.drop 40).take 4 := by
    unfold u32le
    exact leBytes_leNat' (by simp; omega)
  have hpl : ((bs.drop 44).take (4 * u32le bs 36)).length = 4 * u32le bs 36 := by simp; omega
  have c4 : (partOffsets bs).flatMap (leBytes 4) = (bs.drop 44).take (4 * u32le bs 36) := by
    rw [← partOffsets_eq (by omega), List.flatMap_def, List.map_map]
    have : (chunks 4 ((bs.drop 44).take (4 * u32le bs 36))).map (leBytes 4 ∘ leNat) =
        chunks 4 ((bs.drop 44).take (4 * u32le bs 36)) := by
      conv_rhs => rw [← List.map_id (chunks 4 ((bs.drop 44).take (4 * u32le bs 36)))]
      apply List.map_congr_left
      intro c hc
      exact leBytes_leNat' (chunks_all (by omega) hpl c hc)
    rw [this, flatten_chunks (by omega) hpl]
  have c5 : (partOffsets bs).length = u32le bs 36 := by unfold partOffsets; simp
  unfold contentBytes
  rw [c5, hq, c2, c3, c4, ← hpts, ← c1]
  have step : ∀ i k, (bs.take i) ++ (bs.drop i).take k = bs.take (i + k) := by
    intro i k
    rw [List.take_add]
  rw [step 4 32, step 36 4, step 40 4, step 44, List.take_append_drop]

theorem isContent_of {bs : Bytes} (number : Nat) (h5 : u32le bs 0 = 5) (hp : u32le bs 36 ≠ 0) (hl : bs.length = neededLength bs)
    (hc : List.IsChain (Follows (u32le bs 40)) (partOffsets bs)) {last : Nat} (hlast : (partOffsets bs).getLast? = some last)
    (h4 : last + 4 ≤ u32le bs 40) : ∃ rings, IsContent bs rings := by
  obtain ⟨points, hq, hpts, _⟩ := parsePolygonRecord_body number h5 hp hl
  rw [← hq] at hc h4
  obtain ⟨rings, hr⟩ := cuts_exists hc hlast h4
  refine ⟨rings, (bs.drop 4).take 32, partOffsets bs, points, contentBytes_of h5 hl hq hpts, ?_, ?_, ?_, ?_, hr⟩
  · unfold neededLength at hl; simp; omega
  · unfold partOffsets; simpa using u32le_lt bs 36
  · rw [hq]; exact u32le_lt bs 40
  · intro a ha
    unfold partOffsets at ha
    obtain ⟨i, _, rfl⟩ := List.mem_map.mp ha
    exact u32le_lt _ _

theorem isContent_facts {bs : Bytes} {rings : List ShpPolygonRing} (h : IsContent bs rings) :
    u32le bs 0 = 5 ∧ u32le bs 36 ≠ 0 ∧ bs.length = neededLength bs ∧ ∃ points, points.length = u32le bs 40 ∧
      bs.drop (44 + 4 * u32le bs 36) = points.flatMap pointBytes ∧ Cuts points (partOffsets bs) rings := by
  obtain ⟨box, parts, points, rfl, h1, h2, h3, h4, h5⟩ := h
  obtain ⟨a1, a2, a3, a4, a5, a6⟩ := contentBytes_facts h1 h2 h3 h4
  refine ⟨a1, ?_, a4, points, a3.symm, ?_, ?_⟩
  · rw [a2]
    cases h5 <;> simp
  · rw [a2]; exact a6
  · rw [a5]; exact h5

theorem reading_readsAs {number : Nat} {bs : Bytes} {v : Outcome} (h : Reading number bs v) :
    RecordEndsAs (parsePolygonRecord bs number) number v := by
  cases h with
  | noType h =>
    unfold parsePolygonRecord
    rw [u32leAt_error h]
    exact ⟨_, rfl⟩
  | wrongType h1 h2 =>
    unfold parsePolygonRecord
    rw [u32leAt_ok rfl h1, ok_bind, if_pos h2]
    rfl
  | noPartCount h1 h2 h3 =>
    unfold parsePolygonRecord
    rw [u32leAt_ok rfl h1, ok_bind, if_neg (by simpa using h2), u32leAt_error h3]
    exact ⟨_, rfl⟩
  | noParts h1 h2 h3 =>
    unfold parsePolygonRecord
    rw [u32leAt_ok rfl (by omega), ok_bind, if_neg (by simpa using h2), u32leAt_ok rfl h1, ok_bind, if_pos h3]
    rfl
  | noPointCount h1 h2 h3 h4 =>
    unfold parsePolygonRecord
    rw [u32leAt_ok rfl (by omega), ok_bind, if_neg (by simpa using h2), u32leAt_ok rfl h1, ok_bind, if_neg h3, u32leAt_error h4]
    exact ⟨_, rfl⟩
  | wrongLength h1 h2 h3 h4 =>
    unfold parsePolygonRecord
    rw [u32leAt_ok rfl (by omega), ok_bind, if_neg (by simpa using h2), u32leAt_ok rfl (by omega), ok_bind, if_neg h3,
      u32leAt_ok rfl h1, ok_bind, if_pos (fun h => h4 h.symm)]
    rfl
  | outOfRange before a b after h1 h2 h3 h4 h5 h6 =>
    obtain ⟨points, hq, _, last, _, e⟩ := parsePolygonRecord_body number h1 h2 h3
    rw [← hq] at h5 h6 ⊢
    rw [e, h4, tupleWindows_append]
    obtain ⟨acc', e'⟩ := cutRings_prefix number h5 (tupleWindows (a :: b :: after)) []
    rw [e', tupleWindows, cutRings, if_pos (by omega)]
    rfl
  | invalidRange before a b after h1 h2 h3 h4 h5 h6 h7 h8 =>
    obtain ⟨points, hq, _, last, _, e⟩ := parsePolygonRecord_body number h1 h2 h3
    rw [← hq] at h5 h6 h7
    rw [e, h4, tupleWindows_append]
    obtain ⟨acc', e'⟩ := cutRings_prefix number h5 (tupleWindows (a :: b :: after)) []
    rw [e', tupleWindows, cutRings, if_neg (by omega), if_pos (by omega)]
    rfl
  | lastPart last h1 h2 h3 h4 h5 h6 =>
    obtain ⟨points, hq, _, last', hlast, e⟩ := parsePolygonRecord_body number h1 h2 h3
    rw [h5] at hlast
    obtain rfl := Option.some.inj hlast
    rw [← hq] at h4 h6
    obtain ⟨acc', e'⟩ := cutRings_prefix number h4 [] []
    rw [List.append_nil, cutRings] at e'
    rw [e, e']
    simp only [Except.bind]
    rw [if_pos (by omega)]
    rfl
  | accepts rings h =>
    obtain ⟨h1, h2, h3, points, hq, hpts, hc⟩ := isContent_facts h
    obtain ⟨points', hq', hpts', last, hlast, e⟩ := parsePolygonRecord_body number h1 h2 h3
    have : points = points' := flatMap_pointBytes_inj (hpts.symm.trans hpts')
    subst this
    obtain ⟨init, last', r1, r2, r3⟩ := cutRings_chain number hc []
    rw [hlast] at r2
    obtain rfl := Option.some.inj r2
    obtain ⟨_, last', r4, r5⟩ := cuts_chain hc
    rw [hlast] at r4
    obtain rfl := Option.some.inj r4
    rw [e, r3]
    simp only [Except.bind, List.nil_append]
    rw [if_neg (by omega), r1]
    rfl

theorem reading_total (number : Nat) (bs : Bytes) : ∃ v, Reading number bs v := by
  by_cases h1 : bs.length < 4
  · exact ⟨_, .noType h1⟩
  by_cases h2 : u32le bs 0 ≠ 5
  · exact ⟨_, .wrongType (by omega) h2⟩
  have h2 : u32le bs 0 = 5 := by simpa using h2
  by_cases h3 : bs.length < 40
  · exact ⟨_, .noPartCount (by omega) h2 h3⟩
  by_cases h4 : u32le bs 36 = 0
  · exact ⟨_, .noParts (by omega) h2 h4⟩
  by_cases h5 : bs.length < 44
  · exact ⟨_, .noPointCount (by omega) h2 h4 h5⟩
  by_cases h6 : bs.length ≠ neededLength bs
  · exact ⟨_, .wrongLength (by omega) h2 h4 h6⟩
  have h6 : bs.length = neededLength bs := by simpa using h6
  rcases chain_or (u32le bs 40) (partOffsets bs) with hc | ⟨before, a, b, after, e1, e2, e3⟩
  · obtain ⟨_, _, _, last, hlast, _⟩ := parsePolygonRecord_body number h2 h4 h6
    by_cases h7 : u32le bs 40 < last + 4
    · exact ⟨_, .lastPart last h2 h4 h6 hc hlast h7⟩
    · obtain ⟨rings, hr⟩ := isContent_of number h2 h4 h6 hc hlast (by omega)
      exact ⟨_, .accepts rings hr⟩
  · by_cases h7 : u32le bs 40 < a ∨ u32le bs 40 < b
    · exact ⟨_, .outOfRange before a b after h2 h4 h6 e1 e2 h7⟩
    · refine ⟨_, .invalidRange before a b after h2 h4 h6 e1 e2 (by omega) (by omega) ?_⟩
      unfold Follows at e3
      omega

theorem readsAs_unique {x : R (Except ShpError ShpPolygonRecord)} {number : Nat} {v w : Outcome} (hv : RecordEndsAs x number v)
    (hw : RecordEndsAs x number w) : v = w := by
  cases v <;> cases w <;> simp only [RecordEndsAs] at hv hw <;>
    first
    | rfl
    | (obtain ⟨_, rfl⟩ := hv; simp at hw; done)
    | (obtain ⟨_, rfl⟩ := hw; simp at hv; done)
    | (subst hv; simp at hw; done)
    | (subst hv; simp at hw; rw [hw])

theorem readsAs_iff (number : Nat) (bs : Bytes) (v : Outcome) :
    RecordEndsAs (parsePolygonRecord bs number) number v ↔ Reading number bs v := by
  constructor
  · intro h
    obtain ⟨w, hw⟩ := reading_total number bs
    rw [readsAs_unique h (reading_readsAs hw)]
    exact hw
  · exact reading_readsAs

theorem parsePolygonRecord_ok {bs : Bytes} {number : Nat} {record : ShpPolygonRecord} :
    parsePolygonRecord bs number = .ok (.ok record) ↔ record.recordNumber = number ∧ IsContent bs record.rings := by
  constructor
  · intro h
    obtain ⟨w, hw⟩ := reading_total number bs
    have hr := reading_readsAs hw
    cases w with
    | panics => obtain ⟨_, hr⟩ := hr; rw [h] at hr; cases hr
    | error e => simp only [RecordEndsAs] at hr; rw [h] at hr; cases hr
    | accepts rings =>
      simp only [RecordEndsAs] at hr
      rw [h] at hr
      obtain rfl := Except.ok.inj (Except.ok.inj hr)
      cases hw with
      | accepts _ hw => exact ⟨rfl, hw⟩
  · rintro ⟨rfl, h⟩
    exact reading_readsAs (.accepts _ h)

/-! ## Opening -/

theorem parseShpHeader_eq (m : Build) {buf : Bytes} (h : buf.length = 100) :
    parseShpHeader m buf =
      if u32be buf 0 ≠ 9994 then .ok (.error (.parse (.wrongMagic (u32be buf 0))))
      else if u32le buf 28 ≠ 1000 then .ok (.error (.parse (.wrongVersion (u32le buf 28))))
      else if isShapeType (u32le buf 32) then
        if u32le buf 32 = 5 then (m.u32 (u32be buf 24 * 2)).bind fun n =>
          .ok (.ok ⟨n, ⟨f64le buf 36, f64le buf 44, f64le buf 52, f64le buf 60⟩⟩)
        else .ok (.error (.parse (.unsupportedType (u32le buf 32))))
      else .ok (.error (.parse (.nonexistentType (u32le buf 32)))) := by
  unfold parseShpHeader
  rw [u32beAt_ok rfl (by omega), ok_bind, u32beAt_ok rfl (by omega), ok_bind, u32leAt_ok rfl (by omega), ok_bind,
    u32leAt_ok rfl (by omega), ok_bind, f64At_ok rfl (by omega), ok_bind, f64At_ok rfl (by omega), ok_bind,
    f64At_ok rfl (by omega), ok_bind, f64At_ok rfl (by omega), ok_bind]
  rfl

theorem isShapeType_iff (u : Nat) : isShapeType u = true ↔ u ∈ shapeTypes := by
  unfold isShapeType shapeTypes
  simp

theorem u32be_take {bs : Bytes} {i : Nat} (h : i + 4 ≤ 100) : u32be (bs.take 100) i = u32be bs i := by
  unfold u32be
  rw [List.drop_take, List.take_take]
  congr 2
  omega

theorem u32le_take {bs : Bytes} {i : Nat} (h : i + 4 ≤ 100) : u32le (bs.take 100) i = u32le bs i := by
  unfold u32le
  rw [List.drop_take, List.take_take]
  congr 2
  omega

theorem f64le_take {bs : Bytes} {i : Nat} (h : i + 8 ≤ 100) : f64le (bs.take 100) i = f64le bs i := by
  unfold f64le
  rw [List.drop_take, List.take_take]
  congr 3
  omega

/-- Opening a file in memory. -/
theorem shpNew_eq (m : Build) (bs : Bytes) :
    ShpReader.new m (⟨bs⟩ : MemFile) =
      if bs.length < 100 then .ok (.error (.io .unexpectedEof))
      else if u32be bs 0 ≠ 9994 then .ok (.error (.parse (.wrongMagic (u32be bs 0))))
      else if u32le bs 28 ≠ 1000 then .ok (.error (.parse (.wrongVersion (u32le bs 28))))
      else if isShapeType (u32le bs 32) then
        if u32le bs 32 = 5 then (m.u32 (u32be bs 24 * 2)).bind fun n =>
          .ok (.ok ⟨⟨bs.drop 100⟩, 100, ⟨n, ⟨f64le bs 36, f64le bs 44, f64le bs 52, f64le bs 60⟩⟩⟩)
        else .ok (.error (.parse (.unsupportedType (u32le bs 32))))
      else .ok (.error (.parse (.nonexistentType (u32le bs 32)))) := by
  unfold ShpReader.new readShpHeader
  by_cases hl : bs.length < 100
  · rw [memFile_error hl, if_pos hl]
    rfl
  · rw [memFile_ok (by omega), if_neg hl]
    simp only
    rw [parseShpHeader_eq m (by simp; omega), u32be_take (by omega), u32be_take (by omega), u32le_take (by omega),
      u32le_take (by omega), f64le_take (by omega), f64le_take (by omega), f64le_take (by omega), f64le_take (by omega)]
    by_cases h1 : u32be bs 0 ≠ 9994
    · rw [if_pos h1, if_pos h1]; rfl
    rw [if_neg h1, if_neg h1]
    by_cases h2 : u32le bs 28 ≠ 1000
    · rw [if_pos h2, if_pos h2]; rfl
    rw [if_neg h2, if_neg h2]
    by_cases h3 : isShapeType (u32le bs 32) = true
    · rw [if_pos h3, if_pos h3]
      by_cases h4 : u32le bs 32 = 5
      · rw [if_pos h4, if_pos h4]
        rcases m.u32 (u32be bs 24 * 2) with e | n <;> rfl
      · rw [if_neg h4, if_neg h4]; rfl
    · rw [if_neg h3, if_neg h3]; rfl

/-! ## Iterating -/

theorem readPolygonRecord_eq {σ : Type} [Source σ] (file : σ) :
    readPolygonRecord file = (match Source.readExact file 8 with
      | (.error e, f1) => .ok (.error (.io e), f1)
      | (.ok hb, f1) => match Source.readExact f1 (u32be hb 4 * 2) with
        | (.error e, f2) => .ok (.error (.io e), f2)
        | (.ok buf, f2) => (parsePolygonRecord buf (u32be hb 0)).bind fun r => match r with
          | .error e => .ok (.error e, f2)
          | .ok record => .ok (.ok (record, 8 + buf.length), f2)) := by
  unfold readPolygonRecord
  rcases h : Source.readExact file 8 with ⟨e | hb, f1⟩
  · rfl
  · have hl := Source.length_of_ok _ _ _ _ h
    simp only
    rw [u32beAt_ok rfl (by omega), ok_bind, u32beAt_ok rfl (by omega), ok_bind]
    rcases Source.readExact f1 (u32be hb 4 * 2) with ⟨e | buf, f2⟩
    · rfl
    · simp only
      rw [hl]
      rfl

theorem shpNext_end {σ : Type} [Source σ] {r : ShpReader σ} (h : r.header.fileNBytes ≤ r.nBytesAlreadyRead) :
    r.next = .ok (none, r) := by
  unfold ShpReader.next; exact if_pos h

theorem shpNext_more {σ : Type} [Source σ] {r : ShpReader σ} (h : r.nBytesAlreadyRead < r.header.fileNBytes) :
    r.next = (readPolygonRecord r.file).bind fun (res, file') => match res with
      | .error e => .ok (some (.error e), ⟨file', r.nBytesAlreadyRead, r.header⟩)
      | .ok (record, nBytes) =>
        if r.nBytesAlreadyRead + nBytes > r.header.fileNBytes then
          .ok (some (.error (.parse (.fileTooLong r.header.fileNBytes))), ⟨file', r.nBytesAlreadyRead + nBytes, r.header⟩)
        else .ok (some (.ok record), ⟨file', r.nBytesAlreadyRead + nBytes, r.header⟩) := by
  unfold ShpReader.next; exact if_neg (by omega)

/-- All that one call of `next` can do. -/
theorem shpNext_cases {σ : Type} [Source σ] {r r' : ShpReader σ} {o : Option (Except ShpError ShpPolygonRecord)}
    (h : r.next = .ok (o, r')) :
    (r.header.fileNBytes ≤ r.nBytesAlreadyRead ∧ o = none ∧ r' = r) ∨
    (r.nBytesAlreadyRead < r.header.fileNBytes ∧ r'.header = r.header ∧
      ((∃ e, o = some (.error (.io e)) ∧ r'.nBytesAlreadyRead = r.nBytesAlreadyRead ∧
          (Source.readExact r.file 8 = (.error e, r'.file) ∨ ∃ hb f1, Source.readExact r.file 8 = (.ok hb, f1) ∧
            Source.readExact f1 (u32be hb 4 * 2) = (.error e, r'.file))) ∨
       ∃ hb f1 buf, Source.readExact r.file 8 = (.ok hb, f1) ∧ Source.readExact f1 (u32be hb 4 * 2) = (.ok buf, r'.file) ∧
        ((∃ e, o = some (.error (.parse e)) ∧ parsePolygonRecord buf (u32be hb 0) = .ok (.error (.parse e)) ∧
            r'.nBytesAlreadyRead = r.nBytesAlreadyRead) ∨
         ∃ record, parsePolygonRecord buf (u32be hb 0) = .ok (.ok record) ∧
          r'.nBytesAlreadyRead = r.nBytesAlreadyRead + (8 + buf.length) ∧
          ((r.header.fileNBytes < r'.nBytesAlreadyRead ∧ o = some (.error (.parse (.fileTooLong r.header.fileNBytes)))) ∨
           (r'.nBytesAlreadyRead ≤ r.header.fileNBytes ∧ o = some (.ok record)))))) := by
  by_cases hend : r.header.fileNBytes ≤ r.nBytesAlreadyRead
  · rw [shpNext_end hend] at h
    obtain ⟨rfl, rfl⟩ := Prod.mk.inj (Except.ok.inj h)
    exact Or.inl ⟨hend, rfl, rfl⟩
  · refine Or.inr ⟨by omega, ?_⟩
    rw [shpNext_more (by omega), readPolygonRecord_eq] at h
    rcases h1 : Source.readExact r.file 8 with ⟨e | hb, f1⟩
    · rw [h1] at h
      simp only [Except.bind] at h
      obtain ⟨rfl, rfl⟩ := Prod.mk.inj (Except.ok.inj h)
      exact ⟨rfl, Or.inl ⟨e, rfl, rfl, Or.inl rfl⟩⟩
    · rw [h1] at h
      simp only at h
      rcases h2 : Source.readExact f1 (u32be hb 4 * 2) with ⟨e | buf, f2⟩
      · rw [h2] at h
        simp only [Except.bind] at h
        obtain ⟨rfl, rfl⟩ := Prod.mk.inj (Except.ok.inj h)
        exact ⟨rfl, Or.inl ⟨e, rfl, rfl, Or.inr ⟨hb, f1, rfl, h2⟩⟩⟩
      · rw [h2] at h
        simp only at h
        obtain ⟨v, hv⟩ := reading_total (u32be hb 0) buf
        have hv := reading_readsAs hv
        cases v with
        | panics =>
          obtain ⟨e, hv⟩ := hv
          rw [hv] at h
          simp only [Except.bind] at h
          cases h
        | error e =>
          simp only [RecordEndsAs] at hv
          rw [hv] at h
          simp only [Except.bind] at h
          obtain ⟨rfl, rfl⟩ := Prod.mk.inj (Except.ok.inj h)
          exact ⟨rfl, Or.inr ⟨hb, f1, buf, rfl, h2, Or.inl ⟨e, rfl, hv, rfl⟩⟩⟩
        | accepts rings =>
          simp only [RecordEndsAs] at hv
          rw [hv] at h
          simp only [Except.bind] at h
          by_cases hlong : r.nBytesAlreadyRead + (8 + buf.length) > r.header.fileNBytes
          · rw [if_pos hlong] at h
            obtain ⟨rfl, rfl⟩ := Prod.mk.inj (Except.ok.inj h)
            exact ⟨rfl, Or.inr ⟨hb, f1, buf, rfl, h2, Or.inr ⟨_, hv, rfl, Or.inl ⟨hlong, rfl⟩⟩⟩⟩
          · rw [if_neg hlong] at h
            obtain ⟨rfl, rfl⟩ := Prod.mk.inj (Except.ok.inj h)
            exact ⟨rfl, Or.inr ⟨hb, f1, buf, rfl, h2, Or.inr ⟨_, hv, rfl, Or.inr ⟨by simp only; omega, rfl⟩⟩⟩⟩

theorem callsR_succ {ι ο : Type} {next : ι → R (ο × ι)} {n : Nat} {it it' : ι} {os : List ο}
    (h : callsR next (n + 1) it = .ok (os, it')) :
    ∃ o it1 os', next it = .ok (o, it1) ∧ callsR next n it1 = .ok (os', it') ∧ os = o :: os' := by
  simp only [callsR] at h
  rcases h1 : next it with e | ⟨o, it1⟩
  · rw [h1] at h; cases h
  · rw [h1, ok_bind] at h
    simp only at h
    rcases h2 : callsR next n it1 with e | ⟨os', it2⟩
    · rw [h2] at h; cases h
    · rw [h2, ok_bind] at h
      obtain ⟨rfl, rfl⟩ := Prod.mk.inj (Except.ok.inj h)
      exact ⟨o, it1, os', rfl, h2, rfl⟩

theorem callsR_cons {ι ο : Type} {next : ι → R (ο × ι)} {n : Nat} {it it1 it' : ι} {o : ο} {os : List ο}
    (h1 : next it = .ok (o, it1)) (h2 : callsR next n it1 = .ok (os, it')) :
    callsR next (n + 1) it = .ok (o :: os, it') := by
  simp only [callsR]
  rw [h1, ok_bind]
  simp only
  rw [h2, ok_bind]

theorem cuts_size {points : List ShpPoint} {parts : List Nat} {rings : List ShpPolygonRing} (h : Cuts points parts rings) :
    rings.length = parts.length ∧ ∃ a, parts.head? = some a ∧ a + rings.flatten.length = points.length := by
  induction h with
  | last a ring rest h1 h2 h3 =>
    refine ⟨rfl, a, rfl, ?_⟩
    subst h1 h2
    simp
  | more a b parts rings before ring after h1 h2 h3 h4 _ ih =>
    obtain ⟨ih1, c, ih2, ih3⟩ := ih
    have : b = c := by simpa using ih2
    subst this
    refine ⟨by rw [List.length_cons, ih1]; rfl, a, rfl, ?_⟩
    rw [List.flatten_cons, List.length_append]
    omega

theorem isContent_size {bs : Bytes} {rings : List ShpPolygonRing} (h : IsContent bs rings) :
    recordSize rings ≤ 8 + bs.length := by
  obtain ⟨_, _, hl, points, hq, _, hc⟩ := isContent_facts h
  obtain ⟨h1, a, _, h2⟩ := cuts_size hc
  unfold neededLength at hl
  unfold recordSize
  have : (partOffsets bs).length = u32le bs 36 := by unfold partOffsets; simp
  omega

/-! ## Written files -/

theorem contentBytes_length {box : Bytes} {parts : List Nat} {points : List ShpPoint} (hb : box.length = 32) :
    (contentBytes box parts points).length = 44 + 4 * parts.length + 16 * points.length := by
  unfold contentBytes
  rw [List.length_append, List.length_append, List.length_append, List.length_append, List.length_append, leBytes_length, hb,
    leBytes_length, leBytes_length, flatMap_leBytes_length, flatMap_pointBytes_length]

theorem starts_length (start : Nat) (rings : List ShpPolygonRing) : (starts start rings).length = rings.length := by
  induction rings generalizing start with
  | nil => rfl
  | cons r rings ih => rw [starts, List.length_cons, ih, List.length_cons]

theorem starts_le (start : Nat) (rings : List ShpPolygonRing) : ∀ a ∈ starts start rings, a ≤ start + rings.flatten.length := by
  induction rings generalizing start with
  | nil => intro a ha; simp [starts] at ha
  | cons r rings ih =>
    intro a ha
    rw [starts, List.mem_cons] at ha
    rw [List.flatten_cons, List.length_append]
    rcases ha with rfl | ha
    · omega
    · have := ih _ a ha
      omega

theorem cuts_starts (pre : List ShpPoint) {rings : List ShpPolygonRing} (h3 : ∀ ring ∈ rings.dropLast, 3 ≤ ring.length)
    {last : ShpPolygonRing} (hl : rings.getLast? = some last) (h4 : 4 ≤ last.length) :
    Cuts (pre ++ rings.flatten) (starts pre.length rings) rings := by
  induction rings generalizing pre with
  | nil => simp at hl
  | cons r rings ih =>
    cases rings with
    | nil =>
      have : r = last := by simpa using hl
      subst this
      refine .last _ r pre (by simp) rfl h4
    | cons r2 rings =>
      rw [List.getLast?_cons_cons] at hl
      have hr : 3 ≤ r.length := h3 r (by simp)
      have := ih (pre ++ r) (fun x hx => h3 x (by simp only [List.dropLast_cons_cons, List.mem_cons]; exact Or.inr hx)) hl
      rw [List.append_assoc, ← List.flatten_cons, List.length_append] at this
      refine .more pre.length (pre.length + r.length) _ _ pre r (r2 :: rings).flatten ?_ rfl rfl hr this
      rw [List.flatten_cons, List.append_assoc]

theorem outRecord_content {r : OutRecord} (h : r.Good) (hl : r.content.length < 2 ^ 32) :
    IsContent r.content r.rings ∧ 2 * (r.content.length / 2) = r.content.length := by
  obtain ⟨_, h3, last, hlast, h4⟩ := h
  have hlen : r.content.length = 44 + 4 * r.rings.length + 16 * r.rings.flatten.length := by
    unfold OutRecord.content
    rw [contentBytes_length (boxBytes_length _), starts_length]
  refine ⟨⟨boxBytes r.box, starts 0 r.rings, r.rings.flatten, rfl, boxBytes_length _, ?_, ?_, ?_, ?_⟩, by omega⟩
  · rw [starts_length]; omega
  · omega
  · intro a ha
    have := starts_le 0 r.rings a ha
    omega
  · exact cuts_starts [] h3 hlast h4

theorem outRecord_length (r : OutRecord) : r.bytes.length = 8 + r.content.length := by
  unfold OutRecord.bytes
  rw [List.length_append, List.length_append, beBytes_length, beBytes_length]

/-- Reading one record. -/
theorem readPolygonRecord_written {r : OutRecord} (h : r.Good) (hl : r.content.length < 2 ^ 32) (tail : Bytes) :
    readPolygonRecord (⟨r.bytes ++ tail⟩ : MemFile) =
      .ok (.ok (⟨r.number, r.rings⟩, r.bytes.length), ⟨tail⟩) := by
  obtain ⟨hc, heven⟩ := outRecord_content h hl
  have e1 : (beBytes 4 r.number ++ beBytes 4 (r.content.length / 2)).length = 8 := by simp [beBytes_length]
  have hb : r.bytes ++ tail = (beBytes 4 r.number ++ beBytes 4 (r.content.length / 2)) ++ (r.content ++ tail) := by
    unfold OutRecord.bytes
    simp only [List.append_assoc]
  rw [readPolygonRecord_eq, hb, memFile_ok (by rw [List.length_append]; omega), List.take_left' e1, List.drop_left' e1]
  simp only
  have e2 : u32be (beBytes 4 r.number ++ beBytes 4 (r.content.length / 2)) 4 = r.content.length / 2 := by
    unfold u32be
    rw [List.drop_left' (beBytes_length _ _), List.take_of_length_le (by rw [beBytes_length]),
      beNat_beBytes (k := 4) (by omega)]
  have e3 : u32be (beBytes 4 r.number ++ beBytes 4 (r.content.length / 2)) 0 = r.number := by
    unfold u32be
    rw [List.drop_zero, List.take_left' (beBytes_length _ _), beNat_beBytes (k := 4) h.1]
  have e4 : r.content.length / 2 * 2 = r.content.length := by omega
  rw [e2, e3, e4, memFile_ok (by rw [List.length_append]; omega), List.take_left' rfl, List.drop_left' rfl]
  simp only
  rw [parsePolygonRecord_ok (record := ⟨r.number, r.rings⟩).mpr ⟨rfl, hc⟩]
  simp only [Except.bind]
  rw [outRecord_length]

theorem shpCalls_none {σ : Type} [Source σ] {r : ShpReader σ} (h : r.header.fileNBytes ≤ r.nBytesAlreadyRead) (n : Nat) :
    callsR ShpReader.next n r = .ok (List.replicate n none, r) := by
  induction n with
  | zero => rfl
  | succ n ih => exact callsR_cons (shpNext_end h) ih

/-- Reading all records. -/
theorem shpCalls_written (header : ShpHeader) (records : List OutRecord) (hg : ∀ r ∈ records, r.Good) (tail : Bytes) (k n : Nat)
    (hk : k + (records.flatMap OutRecord.bytes).length = header.fileNBytes) (hs : header.fileNBytes < 2 ^ 32) :
    ∃ r', callsR ShpReader.next (records.length + n)
        (⟨⟨records.flatMap OutRecord.bytes ++ tail⟩, k, header⟩ : ShpReader MemFile) =
      .ok (records.map (fun r => some (.ok ⟨r.number, r.rings⟩)) ++ List.replicate n none, r') ∧ r'.file = ⟨tail⟩ := by
  induction records generalizing k with
  | nil =>
    refine ⟨⟨⟨tail⟩, k, header⟩, ?_, ?_⟩
    · simp only [List.length_nil, Nat.zero_add, List.map_nil, List.nil_append, List.flatMap_nil]
      exact shpCalls_none (by simp at hk; simp only; omega) n
    · rfl
  | cons r records ih =>
    rw [List.flatMap_cons, List.length_append] at hk
    have hlen := outRecord_length r
    obtain ⟨r', e1, e2⟩ := ih (fun x hx => hg x (by simp [hx])) (k + r.bytes.length) (by omega)
    refine ⟨r', ?_, e2⟩
    rw [List.length_cons, show records.length + 1 + n = records.length + n + 1 by omega, List.map_cons, List.cons_append]
    refine callsR_cons ?_ e1
    rw [shpNext_more (by simp only; omega), List.flatMap_cons, List.append_assoc]
    simp only
    rw [readPolygonRecord_written (hg r (by simp)) (by omega)]
    simp only [Except.bind]
    rw [if_neg (by omega)]

end TopoGeo
