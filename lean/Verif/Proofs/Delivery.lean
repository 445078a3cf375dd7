import Verif.Spec.Delivery
/-!
# What a `read` that may be short or interrupted gives to `read_exact`
-/

namespace TopoGeo
open Spec

/-- One `read` gives some of the bytes ahead; only once there are none does it report
the end or a failure. -/
structure ReadLaw {ρ : Type} (read : ρ → Nat → Except ReadError Bytes × ρ) (ahead : ρ → Bytes) (broken : ρ → Option IoError)
    (waits : ρ → Nat) (Ok : ρ → Prop) : Prop where
  some : ∀ f f' n bs, 0 < n → Ok f → read f n = (.ok bs, f') → bs.length ≤ n ∧ ahead f = bs ++ ahead f' ∧
    broken f' = broken f ∧ waits f' ≤ waits f ∧ Ok f'
  last : ∀ f f' n, 0 < n → Ok f → read f n = (.ok [], f') → ahead f = [] ∧ broken f = none
  again : ∀ f f' n, 0 < n → Ok f → read f n = (.error .interrupted, f') → ahead f' = ahead f ∧
    broken f' = broken f ∧ waits f' < waits f ∧ Ok f'
  fails : ∀ f f' n e, 0 < n → Ok f → read f n = (.error (.io e), f') → ahead f = [] ∧ broken f = .some e

theorem rawFile_law : ReadLaw RawFile.read (fun f => arriving f.ahead) (fun f => fault f.ahead) (fun f => f.ahead.length)
    (fun f => NonEmpty f.ahead) where
  some := by
    intro f f' n bs hn hk h
    unfold RawFile.read at h
    split at h
    · cases h; next hf => simp [hf, arriving, fault, NonEmpty]
    · next b rest hf =>
      have hk' : Delivery.bytes [] ∉ rest := fun hm => hk (by rw [hf]; exact List.mem_cons_of_mem _ hm)
      split at h
      · next hl =>
        cases h
        simp only [hf, arriving, fault, List.length_cons]
        exact ⟨hl, trivial, trivial, by omega, hk'⟩
      · next hl =>
        cases h
        simp only [hf, arriving, fault, List.length_cons, List.length_take]
        refine ⟨by omega, by rw [← List.append_assoc, List.take_append_drop], trivial, Nat.le_refl _, ?_⟩
        intro hm
        rcases List.mem_cons.mp hm with hm | hm
        · have := congrArg (fun d => match d with | Delivery.bytes b => b.length | _ => 0) hm
          simp at this
          omega
        · exact hk' hm
    · cases h
    · cases h
  last := by
    intro f f' n hn hk h
    unfold RawFile.read at h
    split at h
    · next hf => simp [hf, arriving, fault]
    · next b rest hf =>
      have hb : b ≠ [] := fun hb => hk (by rw [hf, hb]; exact List.mem_cons_self)
      split at h
      · cases h; exact absurd rfl hb
      · next hl =>
        have := (Prod.mk.inj h).1
        have h0 : b.take n = [] := Except.ok.inj this
        rcases List.take_eq_nil_iff.mp h0 with h0 | h0
        · omega
        · exact absurd h0 hb
    · cases h
    · cases h
  again := by
    intro f f' n hn hk h
    unfold RawFile.read at h
    split at h
    · cases h
    · split at h <;> cases h
    · next rest hf =>
      cases h
      simp only [hf, arriving, fault, List.length_cons, true_and]
      exact ⟨by omega, fun hm => hk (by rw [hf]; exact List.mem_cons_of_mem _ hm)⟩
    · cases h
  fails := by
    intro f f' n e hn hk h
    unfold RawFile.read at h
    split at h
    · cases h
    · split at h <;> cases h
    · cases h
    · next e' rest hf =>
      cases h
      simp [hf, arriving, fault]

theorem bufReader_law : ReadLaw BufReader.read (fun f => f.buffer ++ arriving f.inner.ahead) (fun f => fault f.inner.ahead)
    (fun f => f.inner.ahead.length) (fun f => 0 < f.capacity ∧ NonEmpty f.inner.ahead) where
  some := by
    intro f f' n bs hn hk h
    unfold BufReader.read at h
    split at h
    · next hb =>
      split at h
      · match hr : f.inner.read n with
        | (r, inner) =>
        rw [hr] at h
        cases h
        have := rawFile_law.some f.inner inner n bs hn hk.2 hr
        simp only [hb, List.nil_append]
        exact ⟨this.1, this.2.1, this.2.2.1, this.2.2.2.1, hk.1, this.2.2.2.2⟩
      · split at h
        · cases h
        · next bs' inner hr =>
          have := rawFile_law.some f.inner inner f.capacity bs' hk.1 hk.2 hr
          cases h
          simp only [hb, List.nil_append]
          refine ⟨by rw [List.length_take]; omega, ?_, this.2.2.1, this.2.2.2.1, hk.1, this.2.2.2.2⟩
          rw [← List.append_assoc, List.take_append_drop]; exact this.2.1
    · cases h
      simp only
      exact ⟨by rw [List.length_take]; omega, by rw [← List.append_assoc, List.take_append_drop], trivial, Nat.le_refl _, hk⟩
  last := by
    intro f f' n hn hk h
    unfold BufReader.read at h
    split at h
    · next hb =>
      split at h
      · match hr : f.inner.read n with
        | (r, inner) =>
        rw [hr] at h
        cases h
        have := rawFile_law.last f.inner inner n hn hk.2 hr
        simp only [hb, List.nil_append]
        exact this
      · split at h
        · cases h
        · next bs' inner hr =>
          have h0 : bs'.take n = [] := Except.ok.inj (Prod.mk.inj h).1
          have : bs' = [] := by
            rcases List.take_eq_nil_iff.mp h0 with h0 | h0
            · omega
            · exact h0
          subst this
          simp only [hb, List.nil_append]
          exact rawFile_law.last f.inner inner f.capacity hk.1 hk.2 hr
    · next hb =>
      have h0 : f.buffer.take n = [] := Except.ok.inj (Prod.mk.inj h).1
      rcases List.take_eq_nil_iff.mp h0 with h0 | h0
      · omega
      · exact absurd h0 hb
  again := by
    intro f f' n hn hk h
    unfold BufReader.read at h
    split at h
    · next hb =>
      split at h
      · match hr : f.inner.read n with
        | (r, inner) =>
        rw [hr] at h
        cases h
        have := rawFile_law.again f.inner inner n hn hk.2 hr
        simp only [hb, List.nil_append]
        exact ⟨this.1, this.2.1, this.2.2.1, hk.1, this.2.2.2⟩
      · split at h
        · next e inner hr =>
          cases h
          have := rawFile_law.again f.inner inner f.capacity hk.1 hk.2 hr
          simp only [hb, List.nil_append]
          exact ⟨this.1, this.2.1, this.2.2.1, hk.1, this.2.2.2⟩
        · cases h
    · cases h
  fails := by
    intro f f' n e hn hk h
    unfold BufReader.read at h
    split at h
    · next hb =>
      split at h
      · match hr : f.inner.read n with
        | (r, inner) =>
        rw [hr] at h
        cases h
        simp only [hb, List.nil_append]
        exact rawFile_law.fails f.inner inner n e hn hk.2 hr
      · split at h
        · next e' inner hr =>
          cases h
          simp only [hb, List.nil_append]
          exact rawFile_law.fails f.inner inner f.capacity e hk.1 hk.2 hr
        · cases h
    · cases h

section
variable {ρ : Type} {read : ρ → Nat → Except ReadError Bytes × ρ} {ahead : ρ → Bytes} {broken : ρ → Option IoError}
  {waits : ρ → Nat} {Ok : ρ → Prop}

/-- The loop returns the bytes asked for if they are ahead. -/
theorem readExactLoop_ok (law : ReadLaw read ahead broken waits Ok) :
    ∀ (fuel : Nat) (f : ρ) (n : Nat) (acc : Bytes), Ok f → n + waits f < fuel → n ≤ (ahead f).length →
      ∃ f', readExactLoop read fuel f n acc = (.ok (acc ++ (ahead f).take n), f') ∧ ahead f' = (ahead f).drop n ∧
        broken f' = broken f ∧ Ok f'
  | 0, f, n, acc, hk, hf, hn => by omega
  | fuel + 1, f, n, acc, hk, hf, hn => by
    unfold readExactLoop
    by_cases h0 : n = 0
    · subst h0
      exact ⟨f, by simp, by simp, rfl, hk⟩
    · rw [if_neg h0]
      have hpos : 0 < n := Nat.pos_of_ne_zero h0
      match hr : read f n with
      | (.ok bs, f1) =>
        dsimp only
        by_cases hb : bs = []
        · subst hb
          have := law.last f f1 n hpos hk hr
          rw [this.1] at hn
          simp at hn
          omega
        · rw [if_neg hb]
          obtain ⟨h1, h2, h3, h4, h5⟩ := law.some f f1 n bs hpos hk hr
          have hl : 0 < bs.length := List.length_pos_iff.mpr hb
          have hla : (ahead f).length = bs.length + (ahead f1).length := by rw [h2, List.length_append]
          obtain ⟨f', e1, e2, e3, e4⟩ := readExactLoop_ok law fuel f1 (n - bs.length) (acc ++ bs) h5 (by omega) (by omega)
          refine ⟨f', ?_, ?_, e3.trans h3, e4⟩
          · rw [e1, h2, List.take_append, List.take_of_length_le h1, List.append_assoc]
          · rw [e2, h2, List.drop_append, List.drop_of_length_le h1, List.nil_append]
      | (.error .interrupted, f1) =>
        dsimp only
        obtain ⟨h1, h2, h3, h4⟩ := law.again f f1 n hpos hk hr
        obtain ⟨f', e1, e2, e3, e4⟩ := readExactLoop_ok law fuel f1 n acc h4 (by omega) (by rw [h1]; exact hn)
        exact ⟨f', by rw [e1, h1], by rw [e2, h1], e3.trans h2, e4⟩
      | (.error (.io e), f1) =>
        have := law.fails f f1 n e hpos hk hr
        rw [this.1] at hn
        simp at hn
        omega

/-- Otherwise it fails with what is behind the bytes ahead, the end or a failure. -/
theorem readExactLoop_error (law : ReadLaw read ahead broken waits Ok) :
    ∀ (fuel : Nat) (f : ρ) (n : Nat) (acc : Bytes), Ok f → n + waits f < fuel → (ahead f).length < n →
      ∃ f', readExactLoop read fuel f n acc = (.error ((broken f).getD .unexpectedEof), f') ∧
        (broken f = none → ahead f' = [] ∧ broken f' = none ∧ Ok f')
  | 0, f, n, acc, hk, hf, hn => by omega
  | fuel + 1, f, n, acc, hk, hf, hn => by
    unfold readExactLoop
    by_cases h0 : n = 0
    · omega
    · rw [if_neg h0]
      have hpos : 0 < n := Nat.pos_of_ne_zero h0
      match hr : read f n with
      | (.ok bs, f1) =>
        dsimp only
        obtain ⟨h1, h2, h3, h4, h5⟩ := law.some f f1 n bs hpos hk hr
        by_cases hb : bs = []
        · subst hb
          rw [if_pos rfl]
          have := law.last f f1 n hpos hk hr
          refine ⟨f1, by rw [this.2]; rfl, fun _ => ⟨?_, h3.trans this.2, h5⟩⟩
          rw [this.1] at h2
          exact h2.symm
        · rw [if_neg hb]
          have hl : 0 < bs.length := List.length_pos_iff.mpr hb
          have hla : (ahead f).length = bs.length + (ahead f1).length := by rw [h2, List.length_append]
          obtain ⟨f', e1, e2⟩ := readExactLoop_error law fuel f1 (n - bs.length) (acc ++ bs) h5 (by omega) (by omega)
          exact ⟨f', by rw [e1, h3], fun hn => e2 (h3.trans hn)⟩
      | (.error .interrupted, f1) =>
        dsimp only
        obtain ⟨h1, h2, h3, h4⟩ := law.again f f1 n hpos hk hr
        obtain ⟨f', e1, e2⟩ := readExactLoop_error law fuel f1 n acc h4 (by omega) (by rw [h1]; exact hn)
        exact ⟨f', by rw [e1, h2], fun hn => e2 (h2.trans hn)⟩
      | (.error (.io e), f1) =>
        have := law.fails f f1 n e hpos hk hr
        exact ⟨f1, by rw [this.2]; rfl, fun hn => by rw [this.2] at hn; cases hn⟩

theorem readExactOf_ok (law : ReadLaw read ahead broken waits Ok) {f : ρ} {n : Nat} (hk : Ok f) (hn : n ≤ (ahead f).length) :
    ∃ f', readExactOf read (n + waits f + 1) f n = (.ok ((ahead f).take n), f') ∧ ahead f' = (ahead f).drop n ∧
      broken f' = broken f ∧ Ok f' := by
  obtain ⟨f', e1, e2⟩ := readExactLoop_ok law (n + waits f + 1) f n [] hk (by omega) hn
  refine ⟨f', ?_, e2⟩
  rw [readExactOf, e1]
  simp [Nat.min_eq_left hn]

theorem readExactOf_error (law : ReadLaw read ahead broken waits Ok) {f : ρ} {n : Nat} (hk : Ok f) (hn : (ahead f).length < n) :
    ∃ f', readExactOf read (n + waits f + 1) f n = (.error ((broken f).getD .unexpectedEof), f') ∧
      (broken f = none → ahead f' = [] ∧ broken f' = none ∧ Ok f') := by
  obtain ⟨f', e1, e2⟩ := readExactLoop_error law (n + waits f + 1) f n [] hk (by omega) hn
  exact ⟨f', by rw [readExactOf, e1], e2⟩

end

end TopoGeo
