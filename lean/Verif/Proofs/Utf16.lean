import Verif.Proofs.Utf8

/-!
# UTF-16: `decode_utf16` agrees with the encoding of texts
-/

namespace Lokky
open Utf8 Spec

@[simp] theorem utf16_nil : utf16 [] = [] := rfl
@[simp] theorem utf16_cons (ch : Char) (t : List Char) :
    utf16 (ch :: t) = utf16Char ch ++ utf16 t := rfl

theorem code_ofNatAux {n : Nat} (h : n.isValidChar) : code (Char.ofNatAux n h) = n := by
  simp [code, Char.ofNatAux]

theorem code_ofNat {n : Nat} (h : n.isValidChar) : code (Char.ofNat n) = n := by
  unfold Char.ofNat
  rw [dif_pos h]
  exact code_ofNatAux h

theorem u16 {n : Nat} (h : n < 65536) : (UInt16.ofNat n).toNat = n := by
  simp; omega

theorem decode16_plain (u : UInt16) (r : List UInt16) (h : u.toNat < 0xd800 ∨ 0xdfff < u.toNat) :
    decode16 (u :: r) = (Char.ofNat u.toNat :: (decode16 r).1, (decode16 r).2) := by
  have hl := u.toNat_lt
  have h' : u.toNat.isValidChar := by unfold Nat.isValidChar; omega
  rw [decode16.eq_def]
  simp only
  unfold Nat.isValidChar at h'
  rw [dif_pos h']
  unfold Char.ofNat
  rw [dif_pos h']

theorem decode16_pair (u v : UInt16) (r : List UInt16) (h1 : 0xd800 ≤ u.toNat)
    (h2 : u.toNat < 0xdc00) (h3 : 0xdc00 ≤ v.toNat) (h4 : v.toNat ≤ 0xdfff) :
    decode16 (u :: v :: r) =
      (Char.ofNat (u.toNat % 0x400 * 0x400 + v.toNat % 0x400 + 0x10000) :: (decode16 r).1,
        (decode16 r).2) := by
  rw [decode16.eq_def]
  simp only
  rw [dif_neg (by omega), if_neg (by omega), if_neg (by omega)]

theorem char_of_code {ch : Char} {n : Nat} (h : n = ch.val.toNat) : Char.ofNat n = ch := by
  subst h
  exact Char.ofNat_toNat ch

/-- One step of the decoder on the encoding of a character. -/
theorem decode16_char (ch : Char) (r : List UInt16) :
    decode16 (utf16Char ch ++ r) = (ch :: (decode16 r).1, (decode16 r).2) := by
  have hc := code_lt ch
  unfold code at hc
  by_cases h : ch.val.toNat < 0x10000
  · have e : utf16Char ch = [.ofNat ch.val.toNat] := by simp only [utf16Char]; rw [if_pos h]
    have en : (UInt16.ofNat ch.val.toNat).toNat = ch.val.toNat := u16 (by omega)
    rw [e, List.cons_append, List.nil_append, decode16_plain _ _ (by rw [en]; omega),
      char_of_code en]
  · have e : utf16Char ch = [.ofNat (0xd800 + (ch.val.toNat - 0x10000) / 0x400),
        .ofNat (0xdc00 + (ch.val.toNat - 0x10000) % 0x400)] := by
      simp only [utf16Char]; rw [if_neg h]
    have e1 : (UInt16.ofNat (0xd800 + (ch.val.toNat - 0x10000) / 0x400)).toNat
        = 0xd800 + (ch.val.toNat - 0x10000) / 0x400 := u16 (by omega)
    have e2 : (UInt16.ofNat (0xdc00 + (ch.val.toNat - 0x10000) % 0x400)).toNat
        = 0xdc00 + (ch.val.toNat - 0x10000) % 0x400 := u16 (by omega)
    rw [e, List.cons_append, List.cons_append, List.nil_append,
      decode16_pair _ _ _ (by rw [e1]; omega) (by rw [e1]; omega) (by rw [e2]; omega)
        (by rw [e2]; omega), char_of_code (ch := ch) (by rw [e1, e2]; omega)]

/-- Decoding an encoding gives the text back. -/
theorem decode16_utf16 (t : List Char) : decode16 (utf16 t) = (t, true) := by
  induction t with
  | nil => rfl
  | cons ch t ih => rw [utf16_cons, decode16_char, ih]

theorem utf16_inj {t t' : List Char} (h : utf16 t = utf16 t') : t = t' := by
  have := decode16_utf16 t
  rw [h, decode16_utf16] at this
  exact (Prod.mk.inj this).1.symm

/-- A well-formed sequence of units is the encoding of a text. -/
theorem paired_utf16 {us : List UInt16} (h : Paired us) : ∃ t, us = utf16 t := by
  induction h with
  | nil => exact ⟨[], rfl⟩
  | @plain u us hu _ ih =>
    obtain ⟨t, rfl⟩ := ih
    have hl := u.toNat_lt
    have hv : u.toNat.isValidChar := by unfold Nat.isValidChar; omega
    refine ⟨Char.ofNat u.toNat :: t, ?_⟩
    have e := code_ofNat hv
    unfold code at e
    simp only [utf16_cons, utf16Char, e]
    rw [if_pos (by omega)]
    simp
  | @pair u v us h1 h2 h3 h4 _ ih =>
    obtain ⟨t, rfl⟩ := ih
    let n := (u.toNat - 0xd800) * 0x400 + (v.toNat - 0xdc00) + 0x10000
    have hv : n.isValidChar := by unfold Nat.isValidChar; omega
    refine ⟨Char.ofNat n :: t, ?_⟩
    have e := code_ofNat hv
    unfold code at e
    simp only [utf16_cons, utf16Char, e]
    rw [if_neg (by omega)]
    simp only [List.cons_append, List.nil_append, List.cons.injEq, and_true, ← UInt16.toNat_inj]
    refine ⟨?_, ?_⟩
    · simp; omega
    · simp; omega

/-- The encoding of a text is well-formed. -/
theorem utf16_paired (t : List Char) : Paired (utf16 t) := by
  induction t with
  | nil => exact .nil
  | cons ch t ih =>
    have hc := code_lt ch
    unfold code at hc
    by_cases h : ch.val.toNat < 0x10000
    · have e : utf16Char ch = [.ofNat ch.val.toNat] := by simp only [utf16Char]; rw [if_pos h]
      have en : (UInt16.ofNat ch.val.toNat).toNat = ch.val.toNat := u16 (by omega)
      rw [utf16_cons, e]
      exact .plain (by rw [en]; omega) ih
    · have e : utf16Char ch = [.ofNat (0xd800 + (ch.val.toNat - 0x10000) / 0x400),
          .ofNat (0xdc00 + (ch.val.toNat - 0x10000) % 0x400)] := by
        simp only [utf16Char]; rw [if_neg h]
      have e1 : (UInt16.ofNat (0xd800 + (ch.val.toNat - 0x10000) / 0x400)).toNat
          = 0xd800 + (ch.val.toNat - 0x10000) / 0x400 := u16 (by omega)
      have e2 : (UInt16.ofNat (0xdc00 + (ch.val.toNat - 0x10000) % 0x400)).toNat
          = 0xdc00 + (ch.val.toNat - 0x10000) % 0x400 := u16 (by omega)
      rw [utf16_cons, e]
      exact .pair (by rw [e1]; omega) (by rw [e1]; omega) (by rw [e2]; omega) (by rw [e2]; omega) ih

theorem decode16_paired_le : ∀ (n : Nat) (us : List UInt16), us.length ≤ n →
    (decode16 us).2 = true → Paired us := by
  intro n
  induction n with
  | zero =>
    intro us hl _
    have : us = [] := List.length_eq_zero_iff.1 (by omega)
    subst this; exact .nil
  | succ n ih =>
    intro us hl h
    match us, hl, h with
    | [], _, _ => exact .nil
    | u :: r, hl, h =>
      rw [decode16.eq_def] at h
      simp only at h
      split at h
      · exact .plain (by omega) (ih r (by simpa using hl) h)
      · split at h
        · simp at h
        · match r, hl, h with
          | v :: r, hl, h =>
            simp only at h
            split at h
            · simp at h
            · exact .pair (by omega) (by omega) (by omega) (by omega)
                (ih r (by simp only [List.length_cons] at hl; omega) h)

/-- The decoder reports no error exactly on the encodings of texts. -/
theorem decode16_iff (us : List UInt16) :
    (decode16 us).2 = true ↔ us = utf16 (decode16 us).1 := by
  constructor
  · intro h
    obtain ⟨t, e⟩ := paired_utf16 (decode16_paired_le _ us (Nat.le_refl _) h)
    rw [e, decode16_utf16]
  · intro h
    rw [h, decode16_utf16]

theorem paired_iff (us : List UInt16) : Paired us ↔ ∃ t, us = utf16 t :=
  ⟨paired_utf16, by rintro ⟨t, rfl⟩; exact utf16_paired t⟩

/-- A unit decodes to at most three bytes. -/
theorem decode16_len_le : ∀ (n : Nat) (us : List UInt16), us.length ≤ n →
    (utf8 (decode16 us).1).length ≤ 3 * us.length := by
  intro n
  induction n with
  | zero =>
    intro us hl
    have : us = [] := List.length_eq_zero_iff.1 (by omega)
    subst this; simp [decode16]
  | succ n ih =>
    intro us hl
    match us, hl with
    | [], _ => simp [decode16]
    | u :: r, hl =>
      rw [decode16.eq_def]
      simp only
      split
      · rename_i hu
        have h1 := ih r (by simpa using hl)
        simp only [utf8_cons, List.length_append, ← lenUtf8_eq, List.length_cons]
        have : lenUtf8 (Char.ofNatAux u.toNat hu) ≤ 3 := by
          unfold lenUtf8
          have := u.toNat_lt
          have e := code_ofNatAux hu
          unfold code at e
          simp only [e]
          repeat' split
          all_goals omega
        omega
      · split
        · simp
        · match r, hl with
          | [], _ => simp
          | v :: r, hl =>
            simp only
            split
            · simp
            · have h1 := ih r (by simp only [List.length_cons] at hl; omega)
              simp only [utf8_cons, List.length_append, ← lenUtf8_eq, List.length_cons]
              have := lenUtf8_le (Char.ofNat (u.toNat % 0x400 * 0x400 + v.toNat % 0x400 + 0x10000))
              omega

theorem decode16_len (us : List UInt16) : (utf8 (decode16 us).1).length ≤ 3 * us.length :=
  decode16_len_le _ us (Nat.le_refl _)

theorem decode16_ascii : ∀ (us : List UInt16), (∀ u ∈ us, u.toNat < 128) →
    ∀ ch ∈ (decode16 us).1, lenUtf8 ch = 1
  | [], _, ch, h => by simp [decode16] at h
  | u :: us, hu, ch, h => by
    have h1 := hu u (by simp)
    rw [decode16_plain u us (by omega)] at h
    rcases List.mem_cons.mp h with rfl | h
    · have e := code_ofNat (n := u.toNat) (by unfold Nat.isValidChar; omega)
      unfold code at e
      simp only [lenUtf8]
      rw [if_pos (by omega)]
    · exact decode16_ascii us (fun v hv => hu v (by simp [hv])) ch h

end Lokky
