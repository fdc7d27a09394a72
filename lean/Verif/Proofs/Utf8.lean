import Verif.Model.Utf8
import Verif.Spec.Text

/-!
# UTF-8: the functions of `core::str` agree with the encoding of texts
-/

namespace Lokky
open Utf8 Spec

/-- The scalar value of a character. -/
abbrev code (ch : Char) : Nat := ch.val.toNat

theorem code_lt (ch : Char) : code ch < 0x110000 ∧ (code ch < 0xd800 ∨ 0xdfff < code ch) := by
  have h := ch.valid
  unfold UInt32.isValidChar Nat.isValidChar at h
  unfold code
  omega

theorem code_inj {a b : Char} (h : code a = code b) : a = b :=
  Char.ext (UInt32.toNat_inj.1 h)

/-- The bytes of a character, by size. -/
inductive Enc (v : Nat) : List UInt8 → Prop
  | one {a} : v < 0x80 → a.toNat = v → Enc v [a]
  | two {a b} : 0x80 ≤ v → v < 0x800 → a.toNat = 0xc0 + v / 64 → b.toNat = 0x80 + v % 64 →
      Enc v [a, b]
  | three {a b d} : 0x800 ≤ v → v < 0x10000 → v < 0xd800 ∨ 0xdfff < v →
      a.toNat = 0xe0 + v / 4096 → b.toNat = 0x80 + v / 64 % 64 →
      d.toNat = 0x80 + v % 64 → Enc v [a, b, d]
  | four {a b d e} : 0x10000 ≤ v → v < 0x110000 → a.toNat = 0xf0 + v / 262144 →
      b.toNat = 0x80 + v / 4096 % 64 → d.toNat = 0x80 + v / 64 % 64 → e.toNat = 0x80 + v % 64 →
      Enc v [a, b, d, e]

theorem enc_utf8 (ch : Char) : Enc (code ch) (String.utf8EncodeChar ch) := by
  have h := code_lt ch
  unfold code at *
  unfold String.utf8EncodeChar
  generalize ch.val.toNat = v at *
  simp only
  split
  · exact .one (by omega) (by simp; omega)
  · split
    · exact .two (by omega) (by omega) (by simp; omega) (by simp; omega)
    · split
      · exact .three (by omega) (by omega) (by omega) (by simp; omega) (by simp; omega)
          (by simp; omega)
      · exact .four (by omega) (by omega) (by simp; omega) (by simp; omega) (by simp; omega)
          (by simp; omega)

theorem Enc.unique {v : Nat} {l l' : List UInt8} (h : Enc v l) (h' : Enc v l') : l = l' := by
  cases h <;> cases h' <;> first | omega | skip
  all_goals
    simp only [List.cons.injEq, and_true, ← UInt8.toNat_inj]
    omega

theorem enc_code {ch : Char} {l : List UInt8} (h : Enc (code ch) l) :
    l = String.utf8EncodeChar ch := h.unique (enc_utf8 ch)

theorem lenUtf8_eq (ch : Char) : lenUtf8 ch = (String.utf8EncodeChar ch).length := by
  have h := enc_utf8 ch
  unfold lenUtf8
  unfold code at h
  generalize ch.val.toNat = v at *
  generalize String.utf8EncodeChar ch = l at *
  simp only
  cases h <;> repeat' split
  all_goals first | rfl | omega

theorem lenUtf8_pos (ch : Char) : 0 < lenUtf8 ch := by
  unfold lenUtf8; simp only; repeat' split
  all_goals omega

theorem lenUtf8_le (ch : Char) : lenUtf8 ch ≤ 4 := by
  unfold lenUtf8; simp only; repeat' split
  all_goals omega

theorem ofNat_code (ch : Char) : Step.ofNat (code ch) = .ch ch := by
  have h := code_lt ch
  have hv : (code ch).isValidChar := by unfold Nat.isValidChar; omega
  unfold Step.ofNat
  rw [dif_pos hv]
  congr 1

theorem next_utf8 (ch : Char) (r : List UInt8) :
    next (String.utf8EncodeChar ch ++ r) = .ch ch := by
  rw [← ofNat_code ch]
  have h := enc_utf8 ch
  generalize code ch = v at *
  generalize String.utf8EncodeChar ch = l at *
  cases h <;> simp only [List.cons_append, List.nil_append, next]
  · rw [if_pos (by omega)]; congr 1
  · rw [if_neg (by omega), if_pos (by omega)]; congr 1; omega
  · rw [if_neg (by omega), if_neg (by omega), if_pos (by omega)]; congr 1; omega
  · rw [if_neg (by omega), if_neg (by omega), if_neg (by omega)]; congr 1; omega

theorem nextBack_utf8 (ch : Char) (r : List UInt8) :
    nextBack (r ++ String.utf8EncodeChar ch) = .ch ch := by
  rw [← ofNat_code ch]
  have h := enc_utf8 ch
  unfold nextBack
  generalize code ch = v at *
  generalize String.utf8EncodeChar ch = l at *
  cases h <;>
    simp only [List.reverse_append, List.reverse_cons, List.reverse_nil, List.nil_append,
      List.cons_append, nextBackRev]
  · rw [if_pos (by omega)]; congr 1
  · rename_i a b _ _ _ _
    have ha : isCont a = false := by simp [isCont]; omega
    rw [if_neg (by omega), ha]; simp only [Bool.not_false, if_true]; congr 1; omega
  · rename_i a b d _ _ _ _ _ _
    have ha : isCont a = false := by simp [isCont]; omega
    have hb : isCont b = true := by simp [isCont]; omega
    rw [if_neg (by omega), ha, hb]
    simp only [Bool.not_false, Bool.not_true, if_true, Bool.false_eq_true, if_false]; congr 1; omega
  · rename_i a b d e _ _ _ _ _ _
    have hb : isCont b = true := by simp [isCont]; omega
    have hd : isCont d = true := by simp [isCont]; omega
    rw [if_neg (by omega), hb, hd]
    simp only [Bool.not_true, Bool.false_eq_true, if_false]; congr 1; omega

/-! ## Texts -/

@[simp] theorem utf8_nil : utf8 [] = [] := rfl
@[simp] theorem utf8_cons (ch : Char) (t : List Char) :
    utf8 (ch :: t) = String.utf8EncodeChar ch ++ utf8 t := rfl
@[simp] theorem utf8_append (t t' : List Char) : utf8 (t ++ t') = utf8 t ++ utf8 t' :=
  List.flatMap_append ..

theorem utf8_singleton (ch : Char) : utf8 [ch] = String.utf8EncodeChar ch := by simp

theorem utf8_eq_nil {t : List Char} (h : utf8 t = []) : t = [] := by
  cases t with
  | nil => rfl
  | cons ch t =>
    have := lenUtf8_pos ch
    rw [lenUtf8_eq] at this
    have := congrArg List.length h
    simp only [utf8_cons, List.length_append, List.length_nil] at this
    omega

/-- The encoding of texts is injective, and in fact prefix-free character by character. -/
theorem utf8_cancel {ch ch' : Char} {r r' : List UInt8}
    (h : String.utf8EncodeChar ch ++ r = String.utf8EncodeChar ch' ++ r') : ch = ch' ∧ r = r' := by
  have h1 := next_utf8 ch r
  rw [h, next_utf8] at h1
  injection h1 with h1
  subst h1
  exact ⟨rfl, List.append_cancel_left h⟩

theorem utf8_inj : ∀ {t t' : List Char}, utf8 t = utf8 t' → t = t'
  | [], t', h => (utf8_eq_nil h.symm).symm
  | ch :: t, [], h => utf8_eq_nil h
  | ch :: t, ch' :: t', h => by
    obtain ⟨h1, h2⟩ := utf8_cancel (by simpa using h)
    rw [h1, utf8_inj h2]

theorem utf8_prefix : ∀ {p q : List Char} {r r' : List UInt8},
    utf8 p ++ r = utf8 q ++ r' → (utf8 p).length = (utf8 q).length → p = q := by
  intro p q r r' h hl
  exact utf8_inj (List.append_inj_left h hl)

/-- A text splits at an offset in one way only. -/
theorem splitsAt_unique {t p q p' q' : List Char} {i : Nat} (h : SplitsAt t i p q)
    (h' : SplitsAt t i p' q') : p = p' ∧ q = q' := by
  obtain ⟨h1, h2⟩ := h
  obtain ⟨h3, h4⟩ := h'
  have e : utf8 p ++ utf8 q = utf8 p' ++ utf8 q' := by
    rw [← utf8_append, ← utf8_append, ← h1, ← h3]
  have : p = p' := utf8_prefix e (h2.trans h4.symm)
  subst this
  exact ⟨rfl, List.append_cancel_left (h1.symm.trans h3)⟩

theorem splitsAt_bytes {t p q : List Char} {i : Nat} (h : SplitsAt t i p q) :
    (utf8 t).take i = utf8 p ∧ (utf8 t).drop i = utf8 q ∧ i ≤ (utf8 t).length := by
  obtain ⟨h1, h2⟩ := h
  subst h1 h2
  simp

/-- Every byte of a character but the first is a continuation byte, and the first is not. -/
theorem enc_head {ch : Char} : ∃ a r, String.utf8EncodeChar ch = a :: r ∧
    (a.toNat < 128 ∨ 192 ≤ a.toNat) ∧ ∀ b ∈ r, 128 ≤ b.toNat ∧ b.toNat < 192 := by
  have h := enc_utf8 ch
  generalize code ch = v at *
  generalize String.utf8EncodeChar ch = l at *
  cases h
  all_goals
    refine ⟨_, _, rfl, by omega, ?_⟩
    simp only [List.mem_cons, List.not_mem_nil, or_false, forall_eq_or_imp, forall_eq, false_imp_iff,
      implies_true]
  all_goals first | trivial | omega

/-- `is_char_boundary` answers whether the offset is between two characters. -/
theorem isCharBoundary_iff : ∀ (t : List Char) (i : Nat),
    isCharBoundary (utf8 t) i = true ↔ Boundary t i := by
  intro t
  induction t with
  | nil =>
    intro i
    unfold isCharBoundary Boundary SplitsAt
    constructor
    · intro h
      refine ⟨[], [], rfl, ?_⟩
      by_cases hi : i = 0
      · simp [hi]
      · simp [hi] at h
    · rintro ⟨p, q, h1, h2⟩
      have : p = [] := (List.append_eq_nil_iff.1 h1.symm).1
      subst this
      simp at h2
      simp [← h2]
  | cons ch t ih =>
    intro i
    obtain ⟨a, r, he, ha, hr⟩ := enc_head (ch := ch)
    have hz : ∀ s, Boundary s 0 := fun s => ⟨[], s, rfl, rfl⟩
    by_cases hi : i = 0
    · subst hi
      exact ⟨fun _ => hz _, fun _ => by simp [isCharBoundary]⟩
    · by_cases hlt : i < (String.utf8EncodeChar ch).length
      · constructor
        · intro h
          exfalso
          unfold isCharBoundary at h
          rw [if_neg hi, utf8_cons, List.getElem?_append_left hlt] at h
          rw [he] at h hlt
          obtain ⟨j, rfl⟩ : ∃ j, i = j + 1 := ⟨i - 1, by omega⟩
          rw [List.getElem?_cons_succ] at h
          have hj : j < r.length := by simpa using hlt
          rw [List.getElem?_eq_getElem hj] at h
          have := hr _ (List.getElem_mem hj)
          simp at h
          omega
        · rintro ⟨p, q, h1, h2⟩
          exfalso
          cases p with
          | nil => exact hi h2.symm
          | cons d p =>
            injection h1 with h1 _
            subst h1
            simp only [utf8_cons, List.length_append] at h2
            omega
      · obtain ⟨j, rfl⟩ : ∃ j, i = (String.utf8EncodeChar ch).length + j :=
          ⟨i - (String.utf8EncodeChar ch).length, by omega⟩
        have e : isCharBoundary (utf8 (ch :: t)) ((String.utf8EncodeChar ch).length + j)
            = isCharBoundary (utf8 t) j := by
          unfold isCharBoundary
          rw [if_neg hi, utf8_cons, List.getElem?_append_right (by omega)]
          have : (String.utf8EncodeChar ch).length + j - (String.utf8EncodeChar ch).length = j := by
            omega
          rw [this]
          by_cases hj : j = 0
          · subst hj
            simp only [if_true]
            cases t with
            | nil => simp
            | cons d t =>
              obtain ⟨a', r', he', ha', -⟩ := enc_head (ch := d)
              rw [utf8_cons, he']
              simpa using ha'
          · rw [if_neg hj]
            cases (utf8 t)[j]? with
            | none => simp
            | some b => rfl
        rw [e, ih]
        constructor
        · rintro ⟨p, q, h1, h2⟩
          exact ⟨ch :: p, q, by rw [h1]; rfl, by simp [h2]⟩
        · rintro ⟨p, q, h1, h2⟩
          cases p with
          | nil => exact absurd h2.symm hi
          | cons d p =>
            injection h1 with h1 h1'
            subst h1
            refine ⟨p, q, h1', ?_⟩
            simp only [utf8_cons, List.length_append] at h2
            omega

theorem boundary_le {t : List Char} {i : Nat} (h : Boundary t i) : i ≤ (utf8 t).length := by
  obtain ⟨p, q, h⟩ := h
  exact (splitsAt_bytes h).2.2

/-! ## Validation -/

theorem enc_char {v : Nat} {l : List UInt8} (h : Enc v l) : ∃ ch, l = String.utf8EncodeChar ch := by
  have hv : v.isValidChar := by
    unfold Nat.isValidChar
    cases h <;> omega
  refine ⟨Char.ofNatAux v hv, enc_code ?_⟩
  simpa [code, Char.ofNatAux] using h

theorem enc_validate {v : Nat} {l : List UInt8} (h : Enc v l) (r : List UInt8) :
    validate (l ++ r) = validate r := by
  cases h
  · rename_i a h1 h2
    rw [List.cons_append, List.nil_append, validate.eq_def]
    simp only
    rw [if_pos (by omega)]
  · rename_i a b h1 h2 h3 h4
    simp only [List.cons_append, List.nil_append]
    rw [validate.eq_def]
    simp only
    rw [if_neg (by omega), if_pos (by omega)]
    have : isCont b = true := by simp [isCont]; omega
    simp [this]
  · rename_i a b d h1 h2 h3 h4 h5 h6
    simp only [List.cons_append, List.nil_append]
    rw [validate.eq_def]
    simp only
    rw [if_neg (by omega), if_neg (by omega), if_pos (by omega)]
    have hb : isCont b = true := by simp [isCont]; omega
    have hd : isCont d = true := by simp [isCont]; omega
    split
    · simp [hd]; omega
    · split
      · simp [hd]; omega
      · simp [hd, hb]
  · rename_i a b d e h1 h2 h3 h4 h5 h6
    simp only [List.cons_append, List.nil_append]
    rw [validate.eq_def]
    simp only
    rw [if_neg (by omega), if_neg (by omega), if_neg (by omega), if_pos (by omega)]
    have hb : isCont b = true := by simp [isCont]; omega
    have hd : isCont d = true := by simp [isCont]; omega
    have he : isCont e = true := by simp [isCont]; omega
    split
    · simp [hd, he]; omega
    · split
      · simp [hd, he]; omega
      · simp [hd, hb, he]

theorem validate_utf8 (t : List Char) : validate (utf8 t) = true := by
  induction t with
  | nil => rfl
  | cons ch t ih => rw [utf8_cons, enc_validate (enc_utf8 ch), ih]

theorem validate_sound_le : ∀ (n : Nat) (l : List UInt8), l.length ≤ n → validate l = true →
    ∃ t, l = utf8 t := by
  have key : ∀ {v e r}, Enc v e → (∃ t, r = utf8 t) → ∃ t, e ++ r = utf8 t := by
    rintro v e r he ⟨t, rfl⟩
    obtain ⟨ch, rfl⟩ := enc_char he
    exact ⟨ch :: t, rfl⟩
  intro n
  induction n with
  | zero => intro l hl _; exact ⟨[], List.length_eq_zero_iff.1 (by omega)⟩
  | succ n ih =>
  intro l hl h
  match l, hl, h with
  | [], _, _ => exact ⟨[], rfl⟩
  | x :: r, hl, h =>
    rw [validate.eq_def] at h
    simp only at h
    split at h
    · exact key (e := [x]) (.one (by assumption) rfl) (ih r (by simp only [List.length_cons] at hl; omega) h)
    · split at h
      · match r, hl, h with
        | y :: r, hl, h =>
          simp only [isCont, Bool.and_eq_true, decide_eq_true_eq] at h
          exact key (e := [x, y]) (v := x.toNat % 32 * 64 + y.toNat % 64)
            (.two (by omega) (by omega) (by omega) (by omega)) (ih r (by simp only [List.length_cons] at hl; omega) h.2)
      · split at h
        · match r, hl, h with
          | y :: z :: r, hl, h =>
            simp only [isCont, Bool.and_eq_true, decide_eq_true_eq] at h
            obtain ⟨⟨h1, h2⟩, h3⟩ := h
            have h4 : (0x80 ≤ y.toNat ∧ y.toNat < 0xc0) ∧ (x.toNat = 0xe0 → 0xa0 ≤ y.toNat) ∧
                (x.toNat = 0xed → y.toNat ≤ 0x9f) := by
              split at h1
              · simp only [Bool.and_eq_true, decide_eq_true_eq] at h1; omega
              · split at h1
                · simp only [Bool.and_eq_true, decide_eq_true_eq] at h1; omega
                · simp only [Bool.and_eq_true, decide_eq_true_eq] at h1; omega
            clear h1
            exact key (e := [x, y, z])
              (v := x.toNat % 16 * 4096 + (y.toNat % 64 * 64 + z.toNat % 64))
              (.three (by omega) (by omega) (by omega) (by omega) (by omega) (by omega))
              (ih r (by simp only [List.length_cons] at hl; omega) h3)
        · split at h
          · match r, hl, h with
            | y :: z :: w :: r, hl, h =>
              simp only [isCont, Bool.and_eq_true, decide_eq_true_eq] at h
              obtain ⟨⟨⟨h1, h2⟩, h2'⟩, h3⟩ := h
              have h4 : (0x80 ≤ y.toNat ∧ y.toNat < 0xc0) ∧ (x.toNat = 0xf0 → 0x90 ≤ y.toNat) ∧
                  (x.toNat = 0xf4 → y.toNat ≤ 0x8f) := by
                split at h1
                · simp only [Bool.and_eq_true, decide_eq_true_eq] at h1; omega
                · split at h1
                  · simp only [Bool.and_eq_true, decide_eq_true_eq] at h1; omega
                  · simp only [Bool.and_eq_true, decide_eq_true_eq] at h1; omega
              clear h1
              exact key (e := [x, y, z, w])
                (v := x.toNat % 8 * 262144
                  + (y.toNat % 64 * 4096 + (z.toNat % 64 * 64 + w.toNat % 64)))
                (.four (by omega) (by omega) (by omega) (by omega) (by omega) (by omega))
                (ih r (by simp only [List.length_cons] at hl; omega) h3)
          · simp at h

theorem validate_sound (l : List UInt8) (h : validate l = true) : ∃ t, l = utf8 t :=
  validate_sound_le _ l (Nat.le_refl _) h

/-- `str::from_utf8` accepts exactly the encodings of texts. -/
theorem validate_iff (l : List UInt8) : validate l = true ↔ ∃ t, l = utf8 t :=
  ⟨validate_sound l, by rintro ⟨t, rfl⟩; exact validate_utf8 t⟩

end Lokky
