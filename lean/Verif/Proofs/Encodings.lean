import Verif.Model.Encodings
import Verif.Spec.Encodings
import Verif.Proofs.Dbf
/-! # Proofs: text encodings -/

namespace TopoGeo

open Spec

theorem charValid (c : Char) : c.toNat < 0xd800 ∨ (0xdfff < c.toNat ∧ c.toNat < 0x110000) := c.valid

theorem toNat_ofNat_small {n : Nat} (h : n < 256) : (UInt8.ofNat n).toNat = n := by
  rw [UInt8.toNat_ofNat']; omega

theorem charOfNat_of_toNat {c : Char} {n : Nat} (h : n = c.toNat) : Char.ofNat n = c := by
  rw [h, Char.ofNat_toNat]

theorem toNat_charOfNat {n : Nat} (h : n < 0xd800 ∨ (0xdfff < n ∧ n < 0x110000)) : (Char.ofNat n).toNat = n := by
  rw [Char.ofNat, dif_pos h]
  rfl

theorem ofNat_eq_u8 {n : Nat} {b : UInt8} (h : n = b.toNat) : UInt8.ofNat n = b := by
  rw [h, UInt8.ofNat_toNat]

/-- Decoding one character. -/
theorem utf8Loop_char (c : Char) (rest : Bytes) :
    utf8Loop .start ((utf8Char c).map UInt8.ofNat ++ rest) = (utf8Loop .start rest).map (c :: ·) := by
  have hv := charValid c
  have hc : ∀ n, n = c.toNat → Char.ofNat n = c := fun n h => charOfNat_of_toNat h
  unfold utf8Char
  generalize c.toNat = n at hv hc
  simp only
  split
  · rename_i h1
    simp only [List.map_cons, List.map_nil, List.cons_append, List.nil_append, utf8Loop]
    rw [toNat_ofNat_small (by omega)]
    simp only [utf8First, h1, if_true, hc n rfl]
  · split
    · rename_i h1 h2
      simp only [List.map_cons, List.map_nil, List.cons_append, List.nil_append, utf8Loop]
      rw [toNat_ofNat_small (by omega), toNat_ofNat_small (by omega)]
      have : utf8First (0xc0 + n / 64) = some (.inr (.need 0 0x80 0xbf (n / 64))) := by
        unfold utf8First
        rw [if_neg (by omega), if_neg (by omega), if_pos (by omega)]
        rw [Nat.add_sub_cancel_left]
      rw [this]
      simp only [utf8Loop]
      rw [toNat_ofNat_small (by omega), if_pos (by omega), hc _ (by omega)]
    · split
      · rename_i h1 h2 h3
        simp only [List.map_cons, List.map_nil, List.cons_append, List.nil_append, utf8Loop]
        rw [toNat_ofNat_small (by omega)]
        have : ∃ lo hi, utf8First (0xe0 + n / 4096) = some (.inr (.need 1 lo hi (n / 4096))) ∧
            lo ≤ 0x80 + n / 64 % 64 ∧ 0x80 + n / 64 % 64 ≤ hi := by
          unfold utf8First
          rw [if_neg (by omega), if_neg (by omega), if_neg (by omega)]
          by_cases ha : n / 4096 = 0
          · rw [if_pos (by omega)]
            exact ⟨_, _, by rw [ha], by omega, by omega⟩
          · rw [if_neg (by omega)]
            by_cases hb : n / 4096 = 0xd
            · rw [if_pos (by omega)]
              exact ⟨_, _, by rw [hb], by omega, by omega⟩
            · rw [if_neg (by omega), if_pos (by omega)]
              exact ⟨_, _, by rw [Nat.add_sub_cancel_left], by omega, by omega⟩
        obtain ⟨lo, hi, h4, h5, h6⟩ := this
        rw [h4]
        simp only [utf8Loop]
        rw [toNat_ofNat_small (by omega), if_pos ⟨h5, h6⟩, toNat_ofNat_small (by omega), if_pos (by omega),
          hc _ (by omega)]
      · rename_i h1 h2 h3
        simp only [List.map_cons, List.map_nil, List.cons_append, List.nil_append, utf8Loop]
        rw [toNat_ofNat_small (by omega)]
        have : ∃ lo hi, utf8First (0xf0 + n / 262144) = some (.inr (.need 2 lo hi (n / 262144))) ∧
            lo ≤ 0x80 + n / 4096 % 64 ∧ 0x80 + n / 4096 % 64 ≤ hi := by
          unfold utf8First
          rw [if_neg (by omega), if_neg (by omega), if_neg (by omega), if_neg (by omega), if_neg (by omega),
            if_neg (by omega)]
          by_cases ha : n / 262144 = 0
          · rw [if_pos (by omega)]
            exact ⟨_, _, by rw [ha], by omega, by omega⟩
          · rw [if_neg (by omega)]
            by_cases hb : n / 262144 = 4
            · rw [if_neg (by omega), if_pos (by omega)]
              exact ⟨_, _, by rw [hb], by omega, by omega⟩
            · rw [if_pos (by omega)]
              exact ⟨_, _, by rw [Nat.add_sub_cancel_left], by omega, by omega⟩
        obtain ⟨lo, hi, h4, h5, h6⟩ := this
        rw [h4]
        simp only [utf8Loop]
        rw [toNat_ofNat_small (by omega), if_pos ⟨h5, h6⟩, toNat_ofNat_small (by omega), if_pos (by omega),
          toNat_ofNat_small (by omega), if_pos (by omega), hc _ (by omega)]

theorem utf8Bytes_cons (c : Char) (t : Text) : utf8Bytes (c :: t) = (utf8Char c).map UInt8.ofNat ++ utf8Bytes t := by
  simp [utf8Bytes]

/-- What was encoded is decoded. -/
theorem utf8_decode_encode (t : Text) : Encoding.utf8.decode (utf8Bytes t) = .ok t := by
  show utf8Loop .start (utf8Bytes t) = .ok t
  induction t with
  | nil => rfl
  | cons c t ih => rw [utf8Bytes_cons, utf8Loop_char, ih]; rfl

theorem except_map_ok {α β : Type} {f : α → β} {x : Except Text α} {y : β} (h : x.map f = .ok y) :
    ∃ a, x = .ok a ∧ f a = y := by
  cases x with
  | error e => cases h
  | ok a => exact ⟨a, rfl, by cases h; rfl⟩

/-- The last byte of a character. -/
theorem utf8Loop_need0 {lo hi cp : Nat} {bs : Bytes} {t : Text} (h : utf8Loop (.need 0 lo hi cp) bs = .ok t) :
    ∃ b rest t', bs = b :: rest ∧ lo ≤ b.toNat ∧ b.toNat ≤ hi ∧ utf8Loop .start rest = .ok t' ∧
      t = Char.ofNat (cp * 64 + (b.toNat - 0x80)) :: t' := by
  cases bs with
  | nil => cases h
  | cons b rest =>
    simp only [utf8Loop] at h
    split at h
    · rename_i hb
      obtain ⟨t', h1, h2⟩ := except_map_ok h
      exact ⟨b, rest, t', rfl, hb.1, hb.2, h1, h2.symm⟩
    · cases h

/-- A byte of a character that is not the last one. -/
theorem utf8Loop_needSucc {n lo hi cp : Nat} {bs : Bytes} {t : Text} (h : utf8Loop (.need (n + 1) lo hi cp) bs = .ok t) :
    ∃ b rest, bs = b :: rest ∧ lo ≤ b.toNat ∧ b.toNat ≤ hi ∧
      utf8Loop (.need n 0x80 0xbf (cp * 64 + (b.toNat - 0x80))) rest = .ok t := by
  cases bs with
  | nil => cases h
  | cons b rest =>
    simp only [utf8Loop] at h
    split at h
    · rename_i hb
      exact ⟨b, rest, rfl, hb.1, hb.2, h⟩
    · cases h

theorem ofNat_toNat_u8 (b : UInt8) : UInt8.ofNat b.toNat = b := by simp

/-- The four shapes of a first byte. -/
theorem utf8First_some {b : Nat} {x : Char ⊕ Utf8State} (h : utf8First b = some x) :
    (b < 0x80 ∧ x = .inl (Char.ofNat b)) ∨
    (0xc2 ≤ b ∧ b < 0xe0 ∧ x = .inr (.need 0 0x80 0xbf (b - 0xc0))) ∨
    (0xe0 ≤ b ∧ b < 0xf0 ∧ ∃ lo hi, x = .inr (.need 1 lo hi (b - 0xe0)) ∧ 0x80 ≤ lo ∧ hi ≤ 0xbf ∧
      (b = 0xe0 → 0xa0 ≤ lo) ∧ (b = 0xed → hi ≤ 0x9f)) ∨
    (0xf0 ≤ b ∧ b < 0xf5 ∧ ∃ lo hi, x = .inr (.need 2 lo hi (b - 0xf0)) ∧ 0x80 ≤ lo ∧ hi ≤ 0xbf ∧
      (b = 0xf0 → 0x90 ≤ lo) ∧ (b = 0xf4 → hi ≤ 0x8f)) := by
  unfold utf8First at h
  split at h
  · rename_i h1
    exact .inl ⟨h1, (Option.some.inj h).symm⟩
  split at h
  · cases h
  split at h
  · exact .inr (.inl ⟨by omega, by omega, (Option.some.inj h).symm⟩)
  split at h
  · rename_i hb
    exact .inr (.inr (.inl ⟨by omega, by omega, _, _, by rw [← Option.some.inj h, hb], by omega, by omega, by omega, by omega⟩))
  split at h
  · rename_i hb
    exact .inr (.inr (.inl ⟨by omega, by omega, _, _, by rw [← Option.some.inj h, hb], by omega, by omega, by omega, by omega⟩))
  split at h
  · exact .inr (.inr (.inl ⟨by omega, by omega, _, _, (Option.some.inj h).symm, by omega, by omega, by omega, by omega⟩))
  split at h
  · rename_i hb
    exact .inr (.inr (.inr ⟨by omega, by omega, _, _, by rw [← Option.some.inj h, hb], by omega, by omega, by omega, by omega⟩))
  split at h
  · exact .inr (.inr (.inr ⟨by omega, by omega, _, _, (Option.some.inj h).symm, by omega, by omega, by omega, by omega⟩))
  split at h
  · rename_i hb
    exact .inr (.inr (.inr ⟨by omega, by omega, _, _, by rw [← Option.some.inj h, hb], by omega, by omega, by omega, by omega⟩))
  · cases h

/-- What is decoded was encoded. -/
theorem utf8_encode_decode : ∀ (bs : Bytes) (t : Text), utf8Loop .start bs = .ok t → utf8Bytes t = bs := by
  intro bs
  induction hn : bs.length using Nat.strong_induction_on generalizing bs with
  | _ len ih =>
    intro t h
    cases bs with
    | nil => cases h; rfl
    | cons b rest =>
      simp only [utf8Loop] at h
      simp only [List.length_cons] at hn
      cases hf : utf8First b.toNat with
      | none => rw [hf] at h; cases h
      | some x =>
        rw [hf] at h
        have hb := ofNat_toNat_u8 b
        rcases utf8First_some hf with ⟨h1, rfl⟩ | ⟨h1, h2, rfl⟩ | ⟨h1, h2, lo, hi, rfl, h3, h4, h5, h6⟩ |
          ⟨h1, h2, lo, hi, rfl, h3, h4, h5, h6⟩
        · obtain ⟨t', ht, rfl⟩ := except_map_ok h
          rw [utf8Bytes_cons, ih rest.length (by omega) rest rfl t' ht]
          unfold utf8Char
          rw [toNat_charOfNat (by omega)]
          simp only [h1, if_true, List.map_cons, List.map_nil, hb]
          rfl
        · obtain ⟨b1, r1, t', rfl, h7, h8, ht, rfl⟩ := utf8Loop_need0 h
          have hb1 := ofNat_toNat_u8 b1
          rw [utf8Bytes_cons, ih r1.length (by simp at hn; omega) r1 rfl t' ht]
          unfold utf8Char
          rw [toNat_charOfNat (by omega)]
          simp only
          rw [if_neg (by omega), if_pos (by omega)]
          simp only [List.map_cons, List.map_nil, List.cons_append, List.nil_append]
          exact congrArg₂ _ (ofNat_eq_u8 (by omega)) (congrArg₂ _ (ofNat_eq_u8 (by omega)) rfl)
        · obtain ⟨b1, r1, rfl, h7, h8, h⟩ := utf8Loop_needSucc h
          obtain ⟨b2, r2, t', rfl, h9, h10, ht, rfl⟩ := utf8Loop_need0 h
          have hb1 := ofNat_toNat_u8 b1
          have hb2 := ofNat_toNat_u8 b2
          rw [utf8Bytes_cons, ih r2.length (by simp at hn; omega) r2 rfl t' ht]
          unfold utf8Char
          rw [toNat_charOfNat (by omega)]
          simp only
          rw [if_neg (by omega), if_neg (by omega), if_pos (by omega)]
          simp only [List.map_cons, List.map_nil, List.cons_append, List.nil_append]
          exact congrArg₂ _ (ofNat_eq_u8 (by omega)) (congrArg₂ _ (ofNat_eq_u8 (by omega))
            (congrArg₂ _ (ofNat_eq_u8 (by omega)) rfl))
        · obtain ⟨b1, r1, rfl, h7, h8, h⟩ := utf8Loop_needSucc h
          obtain ⟨b2, r2, rfl, h9, h10, h⟩ := utf8Loop_needSucc h
          obtain ⟨b3, r3, t', rfl, h11, h12, ht, rfl⟩ := utf8Loop_need0 h
          have hb1 := ofNat_toNat_u8 b1
          have hb2 := ofNat_toNat_u8 b2
          have hb3 := ofNat_toNat_u8 b3
          rw [utf8Bytes_cons, ih r3.length (by simp at hn; omega) r3 rfl t' ht]
          unfold utf8Char
          rw [toNat_charOfNat (by omega)]
          simp only
          rw [if_neg (by omega), if_neg (by omega), if_neg (by omega)]
          simp only [List.map_cons, List.map_nil, List.cons_append, List.nil_append]
          exact congrArg₂ _ (ofNat_eq_u8 (by omega)) (congrArg₂ _ (ofNat_eq_u8 (by omega))
            (congrArg₂ _ (ofNat_eq_u8 (by omega)) (congrArg₂ _ (ofNat_eq_u8 (by omega)) rfl)))

/-- The last byte of a text in UTF-8 is a space iff its last character is. -/
theorem utf8Bytes_last (t : Text) : (utf8Bytes t).getLast? = some 0x20 ↔ t.getLast? = some ' ' := by
  rcases List.eq_nil_or_concat t with rfl | ⟨t', c, rfl⟩
  · simp [utf8Bytes]
  · have h : utf8Bytes (t'.concat c) = utf8Bytes t' ++ (utf8Char c).map UInt8.ofNat := by simp [utf8Bytes]
    have h2 : (utf8Char c).getLast? = some 0x20 ↔ c = ' ' := by
      have hc : c.toNat = 32 ↔ c = ' ' := ⟨fun h => Char.ext (UInt32.toNat_inj.mp h), fun h => by rw [h]; rfl⟩
      unfold utf8Char
      simp only
      split
      · simpa using hc
      · rename_i hge
        have hn : ¬ c = ' ' := fun h => by rw [← hc] at h; omega
        split
        · simp only [List.getLast?_cons_cons, List.getLast?_singleton, Option.some.injEq, hn, iff_false]; omega
        · split
          · simp only [List.getLast?_cons_cons, List.getLast?_singleton, Option.some.injEq, hn, iff_false]; omega
          · simp only [List.getLast?_cons_cons, List.getLast?_singleton, Option.some.injEq, hn, iff_false]; omega
    have h3 : ∀ n, (utf8Char c).getLast? = some n → n < 256 ∧ ((utf8Char c).map UInt8.ofNat).getLast? = some (UInt8.ofNat n) := by
      intro n hn
      refine ⟨?_, by rw [List.getLast?_map, hn]; rfl⟩
      have hv := charValid c
      unfold utf8Char at hn
      simp only at hn
      split at hn
      · simp at hn; omega
      · split at hn
        · simp at hn; omega
        · split at hn
          · simp at hn; omega
          · simp at hn; omega
    obtain ⟨n, hn⟩ : ∃ n, (utf8Char c).getLast? = some n := by
      cases hl : (utf8Char c).getLast? with
      | some n => exact ⟨n, rfl⟩
      | none =>
        rw [List.getLast?_eq_none_iff] at hl
        unfold utf8Char at hl
        simp only at hl
        split at hl
        · cases hl
        · split at hl
          · cases hl
          · split at hl <;> cases hl
    obtain ⟨h4, h5⟩ := h3 n hn
    rw [h, List.getLast?_append, h5, List.concat_eq_append, List.getLast?_append]
    simp only [Option.some_or, List.getLast?_singleton, Option.some.injEq]
    rw [← h2, hn, Option.some.injEq]
    constructor
    · intro h6
      have := congrArg UInt8.toNat h6
      rw [toNat_ofNat_small h4] at this
      exact this
    · rintro rfl; rfl

/-- Errors of the UTF-8 decoder. -/
theorem utf8Loop_error : ∀ (bs : Bytes) (s : Utf8State) (e : Text), utf8Loop s bs = .error e →
    e = "invalid sequence".toList ∨ e = "incomplete sequence".toList := by
  intro bs
  induction bs with
  | nil =>
    intro s e h
    cases s with
    | start => cases h
    | need n lo hi cp => cases h; exact .inr rfl
  | cons b rest ih =>
    intro s e h
    cases s with
    | start =>
      simp only [utf8Loop] at h
      split at h
      · cases h; exact .inl rfl
      · cases hr : utf8Loop .start rest with
        | error e' => rw [hr] at h; cases h; exact ih _ _ hr
        | ok t => rw [hr] at h; cases h
      · exact ih _ _ h
    | need n lo hi cp =>
      simp only [utf8Loop] at h
      split at h
      · cases n with
        | zero =>
          simp only at h
          cases hr : utf8Loop .start rest with
          | error e' => rw [hr] at h; cases h; exact ih _ _ hr
          | ok t => rw [hr] at h; cases h
        | succ n => exact ih _ _ h
      · cases h; exact .inl rfl

/-! ## windows-1252 and ASCII -/

theorem windows1252Char_table : ∀ p ∈ windows1252Table, windows1252Char (UInt8.ofNat p.1) = p.2 ∧ p.1 < 256 := by
  decide +kernel

theorem windows1252Char_other : ∀ n : Fin 256, n.val ∉ windows1252Table.map Prod.fst →
    windows1252Char (UInt8.ofNat n.val) = Char.ofNat n.val := by
  decide +kernel

theorem windows1252Char_inj_fin : ∀ n : Fin 256, ∀ n' : Fin 256,
    windows1252Char (UInt8.ofNat n.val) = windows1252Char (UInt8.ofNat n'.val) → n = n' := by
  decide +kernel

theorem windows1252Char_inj (b b' : UInt8) (h : windows1252Char b = windows1252Char b') : b = b' := by
  have := windows1252Char_inj_fin ⟨b.toNat, UInt8.toNat_lt b⟩ ⟨b'.toNat, UInt8.toNat_lt b'⟩
    (by simpa only [UInt8.ofNat_toNat] using h)
  exact UInt8.toNat_inj.mp (congrArg Fin.val this)

theorem windows1252Char_iff (b : UInt8) (c : Char) : IsWindows1252 b c ↔ windows1252Char b = c := by
  have hb := UInt8.ofNat_toNat (x := b)
  have hlt : b.toNat < 256 := UInt8.toNat_lt b
  constructor
  · rintro (h | ⟨h1, h2⟩)
    · have := (windows1252Char_table _ h).1
      rwa [hb] at this
    · have := windows1252Char_other ⟨b.toNat, hlt⟩ h2
      rw [hb] at this
      rw [this]
      exact charOfNat_of_toNat h1.symm
  · rintro rfl
    by_cases h : b.toNat ∈ windows1252Table.map Prod.fst
    · obtain ⟨p, hp, hpb⟩ := List.mem_map.mp h
      have := (windows1252Char_table p hp).1
      rw [hpb, hb] at this
      refine .inl ?_
      rw [this, ← hpb]
      exact hp
    · refine .inr ⟨?_, h⟩
      have := windows1252Char_other ⟨b.toNat, hlt⟩ h
      rw [hb] at this
      rw [this, toNat_charOfNat (by simp only; omega)]

theorem ascii_decode_iff (bs : Bytes) (t : Text) : Encoding.ascii.decode bs = .ok t ↔ IsAscii t bs := by
  have hall : (bs.all fun b => decide (b < 128)) = true ↔ ∀ b ∈ bs, b.toNat < 128 := by
    simp [List.all_eq_true, UInt8.lt_iff_toNat_lt]
  constructor
  · intro h
    unfold Encoding.ascii at h
    simp only at h
    split at h
    · rename_i ha
      rw [hall] at ha
      cases h
      refine ⟨?_, ?_⟩
      · rw [List.map_map]
        refine List.map_congr_left fun b hb => ?_
        have := ha b hb
        simp only [Function.comp]
        rw [toNat_charOfNat (by omega)]
      · intro c hc
        obtain ⟨b, hb, rfl⟩ := List.mem_map.mp hc
        have := ha b hb
        rw [toNat_charOfNat (by omega)]
        exact this
    · cases h
  · rintro ⟨h1, h2⟩
    have ha : ∀ b ∈ bs, b.toNat < 128 := by
      intro b hb
      have : b.toNat ∈ bs.map UInt8.toNat := List.mem_map_of_mem hb
      rw [h1] at this
      obtain ⟨c, hc, he⟩ := List.mem_map.mp this
      have := h2 c hc
      omega
    have := hall.mpr ha
    unfold Encoding.ascii
    simp only [this, if_true]
    congr 1
    have h3 : bs.map (fun b => Char.ofNat b.toNat) = (bs.map UInt8.toNat).map Char.ofNat := by simp
    rw [h3, h1, List.map_map]
    conv_rhs => rw [← List.map_id t]
    exact List.map_congr_left fun c _ => Char.ofNat_toNat c

/-- ASCII is part of UTF-8. -/
theorem ascii_extends_utf8 : Extends Encoding.ascii Encoding.utf8 := by
  intro bs t h
  rw [ascii_decode_iff] at h
  obtain ⟨h1, h2⟩ := h
  have : utf8Bytes t = bs := by
    have h3 : t.flatMap utf8Char = t.map Char.toNat := by
      clear h1
      induction t with
      | nil => rfl
      | cons c t ih =>
        rw [List.flatMap_cons, ih fun c hc => h2 c (List.mem_cons_of_mem _ hc)]
        unfold utf8Char
        simp only
        rw [if_pos (h2 c List.mem_cons_self)]
        rfl
    unfold utf8Bytes
    rw [h3, ← h1, List.map_map]
    conv_rhs => rw [← List.map_id bs]
    exact List.map_congr_left fun b _ => UInt8.ofNat_toNat
  rw [← this]
  exact utf8_decode_encode t

/-- ASCII is part of windows-1252. -/
theorem ascii_extends_windows1252 : Extends Encoding.ascii Encoding.windows1252 := by
  intro bs t h
  unfold Encoding.ascii at h
  simp only at h
  split at h
  · rename_i ha
    cases h
    unfold Encoding.windows1252
    simp only
    congr 1
    refine List.map_congr_left fun b hb => ?_
    have := List.all_eq_true.mp ha b hb
    simp only [decide_eq_true_eq, UInt8.lt_iff_toNat_lt] at this
    have h128 : b.toNat < 128 := this
    unfold windows1252Char
    rw [if_pos h128]
  · cases h

/-! ## Readers under another encoding -/

theorem withCode_recode (u : UInt8) (enc enc' : Encoding) : DbfType.withCode u enc' = (DbfType.withCode u enc).recode enc' := by
  unfold DbfType.withCode
  split <;> rfl

theorem parseDbfField_recode {enc enc' : Encoding} (h : Extends enc enc') {bytes : Bytes} {offset : Nat} {f : DbfField}
    (hf : parseDbfField bytes enc offset = .ok (.ok f)) : parseDbfField bytes enc' offset = .ok (.ok (f.recode enc')) := by
  unfold parseDbfField at hf ⊢
  rw [bind_ok] at hf
  obtain ⟨nameBytes, h1, hf⟩ := hf
  rw [h1, ok_bind]
  simp only at hf ⊢
  rw [bind_ok] at hf
  obtain ⟨nm, h2, hf⟩ := hf
  rw [h2, ok_bind]
  cases hd : enc.decode nm with
  | error e => rw [hd] at hf; cases hf
  | ok name =>
    rw [hd] at hf
    rw [h _ _ hd]
    simp only at hf ⊢
    split at hf
    · cases hf
      rw [withCode_recode _ enc enc']
      rfl
    · cases hf

theorem parseDbfFields_recode {enc enc' : Encoding} (h : Extends enc enc') : ∀ (cs : List Bytes) (offset : Nat)
    (v fs : List DbfField), parseDbfFields enc offset v cs = .ok (.ok fs) →
    parseDbfFields enc' offset (v.map (·.recode enc')) cs = .ok (.ok (fs.map (·.recode enc'))) := by
  intro cs
  induction cs with
  | nil => intro offset v fs hf; cases hf; rfl
  | cons c cs ih =>
    intro offset v fs hf
    unfold parseDbfFields at hf ⊢
    split
    · rename_i hl
      rw [if_pos hl] at hf
      cases hf; rfl
    · rename_i hl
      rw [if_neg hl, bind_ok] at hf
      obtain ⟨r, h1, hf⟩ := hf
      cases r with
      | error e => cases hf
      | ok next =>
        rw [parseDbfField_recode h h1, ok_bind]
        simp only at hf ⊢
        have := ih _ _ _ hf
        rw [List.map_append] at this
        exact this

theorem dbfNew_recode {σ : Type} [Source σ] {m : Build} {file : σ} {enc enc' : Encoding} (h : Extends enc enc') {r : DbfReader σ}
    (hr : DbfReader.new m file enc = .ok (.ok r)) : DbfReader.new m file enc' = .ok (.ok (r.recode enc')) := by
  unfold DbfReader.new readDbfMeta at hr ⊢
  rw [bind_ok] at hr
  obtain ⟨⟨a, file'⟩, h1, hr⟩ := hr
  rw [bind_ok] at h1
  obtain ⟨⟨hd, file1⟩, h2, h1⟩ := h1
  rw [h2, ok_bind]
  cases hd with
  | error e => cases h1; cases hr
  | ok hd =>
    simp only at h1 ⊢
    rw [bind_ok] at h1
    obtain ⟨⟨fs, file2⟩, h3, h1⟩ := h1
    cases fs with
    | error e => cases h1; cases hr
    | ok fs =>
      cases h1
      cases hr
      have : readDbfFields m file1 enc' hd = .ok (.ok (fs.map (·.recode enc')), file2) := by
        unfold readDbfFields at h3 ⊢
        split
        · rename_i hlt
          rw [if_pos hlt] at h3; cases h3
        · rename_i hlt
          rw [if_neg hlt] at h3
          split at h3
          · cases h3
          · rename_i buf f2 hb
            rw [bind_ok] at h3
            obtain ⟨r2, h4, h5⟩ := h3
            cases h5
            have := parseDbfFields_recode h _ _ _ _ h4
            rw [List.map_nil] at this
            rw [this]
            rfl
      rw [this]
      rfl

theorem dbfNext_recode {σ : Type} [Source σ] (enc : Encoding) (r : DbfReader σ) :
    (r.recode enc).next = ((r.next).1.map (·.map (·.recode enc)), (r.next).2.recode enc) := by
  unfold DbfReader.next readDbfRecord
  have h1 : (r.recode enc).nRecordsAlreadyIterated = r.nRecordsAlreadyIterated := rfl
  have h2 : (r.recode enc).dbfMeta.nRecords = r.dbfMeta.nRecords := rfl
  have h3 : (r.recode enc).file = r.file := rfl
  have h4 : (r.recode enc).dbfMeta.nBytesPerRecord = r.dbfMeta.nBytesPerRecord := rfl
  rw [h1, h2, h3, h4]
  split
  · rfl
  · cases Source.readExact r.file r.dbfMeta.nBytesPerRecord with
    | mk a b => cases a <;> rfl

theorem shapefileNext_recode {σ τ : Type} [Source σ] [Source τ] (enc : Encoding) (r : ShapefileReader σ τ) :
    (r.recode enc).next = (r.next).map fun x => (x.1.map (·.map (·.recode enc)), x.2.recode enc) := by
  unfold ShapefileReader.next
  have h1 : (r.recode enc).shpReader = r.shpReader := rfl
  have h2 : (r.recode enc).dbfReader = r.dbfReader.recode enc := rfl
  rw [h1, h2]
  cases r.shpReader.next with
  | error e => rfl
  | ok x =>
    obtain ⟨a, shp'⟩ := x
    simp only [ok_bind, dbfNext_recode]
    cases r.dbfReader.next with
    | mk b d' =>
      cases a with
      | none => cases b <;> rfl
      | some a => cases a <;> (rcases b with _ | _ | _ <;> rfl)

theorem readString_recode {enc enc' : Encoding} (h : Extends enc enc') {f : DbfField}
    (hf : f.dataType = .character enc ∨ ∀ e, f.dataType ≠ .character e) {record : DbfRecord} {t : Text}
    (ht : f.readString record = .ok (.ok t)) : (f.recode enc').readString (record.recode enc') = .ok (.ok t) := by
  unfold DbfField.readString at ht ⊢
  rw [bind_ok] at ht
  obtain ⟨bytes, h1, ht⟩ := ht
  have h2 : slice (record.recode enc').bytes (f.recode enc').offset ((f.recode enc').offset + (f.recode enc').len) = .ok bytes := h1
  rw [h2, ok_bind]
  have h3 : (f.recode enc').dataType = f.dataType.recode enc' := rfl
  rw [h3]
  cases hd : f.dataType with
  | character e =>
    rw [hd] at ht hf
    rcases hf with hf | hf
    · cases hf
      simp only [DbfType.recode] at ht ⊢
      cases hdec : enc.decode (trimEndSpaces bytes) with
      | error e => rw [hdec] at ht; cases ht
      | ok s => rw [hdec] at ht; rw [h _ _ hdec]; exact ht
    · exact absurd rfl (hf e)
  | numeric => rw [hd] at ht; exact ht
  | long => rw [hd] at ht; exact ht
  | logical => rw [hd] at ht; exact ht
  | date => rw [hd] at ht; exact ht
  | floatingPoint => rw [hd] at ht; exact ht
  | timestamp => rw [hd] at ht; exact ht
  | double => rw [hd] at ht; exact ht
  | unsupported => rw [hd] at ht; exact ht

/-- The character fields of a table are read with the encoding that the file was opened
with. -/
theorem withCode_enc (u : UInt8) (enc : Encoding) :
    DbfType.withCode u enc = .character enc ∨ ∀ e, DbfType.withCode u enc ≠ .character e := by
  unfold DbfType.withCode
  split <;> first | exact .inl rfl | exact .inr (fun e h => by cases h)

theorem parseDbfFields_enc {enc : Encoding} : ∀ (cs : List Bytes) (offset : Nat) (v fs : List DbfField),
    parseDbfFields enc offset v cs = .ok (.ok fs) →
    (∀ f ∈ v, f.dataType = .character enc ∨ ∀ e, f.dataType ≠ .character e) →
    ∀ f ∈ fs, f.dataType = .character enc ∨ ∀ e, f.dataType ≠ .character e := by
  intro cs
  induction cs with
  | nil => intro offset v fs hf hv; cases hf; exact hv
  | cons c cs ih =>
    intro offset v fs hf hv
    unfold parseDbfFields at hf
    split at hf
    · cases hf; exact hv
    · rw [bind_ok] at hf
      obtain ⟨r, h1, hf⟩ := hf
      cases r with
      | error e => cases hf
      | ok next =>
        refine ih _ _ _ hf fun f hm => ?_
        rcases List.mem_append.mp hm with hm | hm
        · exact hv f hm
        · rw [List.mem_singleton.mp hm]
          unfold parseDbfField at h1
          rw [bind_ok] at h1
          obtain ⟨_, _, h1⟩ := h1
          simp only at h1
          rw [bind_ok] at h1
          obtain ⟨nm, _, h1⟩ := h1
          cases hd : enc.decode nm with
          | error e => rw [hd] at h1; cases h1
          | ok name =>
            rw [hd] at h1
            simp only at h1
            split at h1
            · cases h1; exact withCode_enc _ _
            · cases h1

theorem dbfNew_enc {σ : Type} [Source σ] {m : Build} {file : σ} {enc : Encoding} {r : DbfReader σ}
    (hr : DbfReader.new m file enc = .ok (.ok r)) :
    ∀ f ∈ r.dbfMeta.fields, f.dataType = .character enc ∨ ∀ e, f.dataType ≠ .character e := by
  unfold DbfReader.new readDbfMeta at hr
  rw [bind_ok] at hr
  obtain ⟨⟨a, file'⟩, h1, hr⟩ := hr
  rw [bind_ok] at h1
  obtain ⟨⟨hd, file1⟩, h2, h1⟩ := h1
  cases hd with
  | error e => cases h1; cases hr
  | ok hd =>
    simp only at h1
    rw [bind_ok] at h1
    obtain ⟨⟨fs, file2⟩, h3, h1⟩ := h1
    cases fs with
    | error e => cases h1; cases hr
    | ok fs =>
      cases h1
      cases hr
      unfold readDbfFields at h3
      split at h3
      · cases h3
      · split at h3
        · cases h3
        · rw [bind_ok] at h3
          obtain ⟨r2, h4, h5⟩ := h3
          cases h5
          exact parseDbfFields_enc _ _ _ _ h4 (by simp)

/-- Under an encoding in which all bytes are text, no name of a field is bad. -/
theorem parseDbfFields_total {enc : Encoding} (ht : ∀ bs, ∃ t, enc.decode bs = .ok t) : ∀ (cs : List Bytes) (offset : Nat)
    (v : List DbfField) (e : DbfError), parseDbfFields enc offset v cs ≠ .ok (.error e) := by
  intro cs
  induction cs with
  | nil => intro offset v e hf; cases hf
  | cons c cs ih =>
    intro offset v e hf
    unfold parseDbfFields at hf
    split at hf
    · cases hf
    · rw [bind_ok] at hf
      obtain ⟨r, h1, hf⟩ := hf
      cases r with
      | ok next => exact ih _ _ _ hf
      | error e' =>
        unfold parseDbfField at h1
        rw [bind_ok] at h1
        obtain ⟨_, _, h1⟩ := h1
        simp only at h1
        rw [bind_ok] at h1
        obtain ⟨nm, _, h1⟩ := h1
        obtain ⟨t, ht⟩ := ht nm
        rw [ht] at h1
        simp only at h1
        split at h1 <;> cases h1

theorem dbfNew_total {σ : Type} [Source σ] {m : Build} {file : σ} {enc : Encoding} (ht : ∀ bs, ∃ t, enc.decode bs = .ok t) :
    DbfReader.new m file enc ≠ .ok (.error (.parse .badFieldName)) := by
  intro hr
  unfold DbfReader.new readDbfMeta at hr
  rw [bind_ok] at hr
  obtain ⟨⟨a, file'⟩, h1, hr⟩ := hr
  rw [bind_ok] at h1
  obtain ⟨⟨hd, file1⟩, h2, h1⟩ := h1
  cases hd with
  | error e =>
    cases h1; cases hr
    unfold readDbfHeader at h2
    split at h2
    · cases h2
    · split at h2
      · split at h2
        · cases h2
        · rw [bind_ok] at h2
          obtain ⟨_, _, h2⟩ := h2
          rw [bind_ok] at h2
          obtain ⟨_, _, h2⟩ := h2
          rw [bind_ok] at h2
          obtain ⟨_, _, h2⟩ := h2
          cases h2
      · cases h2
  | ok hd =>
    simp only at h1
    rw [bind_ok] at h1
    obtain ⟨⟨fs, file2⟩, h3, h1⟩ := h1
    cases fs with
    | ok fs => cases h1; cases hr
    | error e =>
      cases h1
      cases hr
      unfold readDbfFields at h3
      split at h3
      · cases h3
      · split at h3
        · cases h3
        · rw [bind_ok] at h3
          obtain ⟨r2, h4, h5⟩ := h3
          cases h5
          exact parseDbfFields_total ht _ _ _ _ h4

end TopoGeo
