import Verif.Props.TextHistory
import Verif.Props.VecCmp
import Verif.Props.Witness

/-!
# C42-C49, C82, C83: single calls on strings

`Rep c s.self s.w (utf8 t)` says that the string `s` holds the text `t`.
-/

namespace Lokky
open Utf8 Spec
variable {c : Cfg UInt8} {s : VSt UInt8} {t : List Char}

/-! ## C42: byte offsets -/

/-- C42. Offsets which are not between two characters (inside one, or beyond the end) are rejected with
a panic, and nothing has changed. Truncating to a length beyond the end does nothing. -/
theorem C42_rejected (hb : Bytes c) (h : Rep c s.self s.w (utf8 t)) {i : Nat} (hi : ¬ Boundary t i) :
    (∀ ch, Str.insert c i ch s = .panic s) ∧ (∀ l, Str.insertStr c i l s = .panic s) ∧
    Str.remove c i s = .panic s ∧ Str.splitOff c i s = .panic s ∧
    Str.truncate c i s = if i < (utf8 t).length then .panic s else .ok () s := by
  have hB : ¬ isCharBoundary (utf8 t) i = true := fun e => hi ((isCharBoundary_iff t i).1 e)
  refine ⟨fun ch => ?_, fun l => ?_, remove_str_panic hb h (.inl hi), ?_, ?_⟩
  · unfold Str.insert
    rw [M.bind_ok (asStr_eq hb h), M.bind_panic (assert_neg hB)]
  · unfold Str.insertStr
    rw [M.bind_ok (asStr_eq hb h), M.bind_panic (assert_neg hB)]
  · unfold Str.splitOff
    rw [M.bind_ok (asStr_eq hb h), M.bind_panic (assert_neg hB)]
  · unfold Str.truncate
    rw [M.bind_ok (len_eq h)]
    by_cases hk : i < (utf8 t).length
    · rw [if_pos hk, if_pos hk, M.bind_ok (asStr_eq hb h), M.bind_panic (assert_neg hB)]
    · rw [if_neg hk, if_neg hk]; rfl

/-- C42. Offsets between two characters are accepted by `insert_str`: the text goes there, unless the
allocator refuses, and then nothing has changed. -/
theorem C42_insertStr_accepted {p q : List Char} (hb : Bytes c)
    (h : Rep c s.self s.w (utf8 (p ++ q))) (hw : s.w.WF) (x : List Char)
    (hf : RoomFits c s.self.cap (utf8 (p ++ q)).length (utf8 x).length) :
    Sat c (Str.insertStr c (utf8 p).length (utf8 x) s)
      (fun _ s' => Rep c s'.self s'.w (utf8 (p ++ x ++ q)))
      (fun s' => s'.w.refusals = s.w.refusals + 1 ∧ Rep c s'.self s'.w (utf8 (p ++ q))) := by
  refine (insertStr_spec hb h hw _ x hf).mono ?_ ?_
  · rintro _ s' ⟨p', q', h1, h2⟩
    obtain ⟨rfl, rfl⟩ := splitsAt_unique h1 ⟨rfl, rfl⟩
    exact h2.rep
  · rintro s' (⟨h1, _⟩ | ⟨_, h2⟩)
    · exact absurd ⟨p, q, rfl, rfl⟩ h1
    · exact ⟨h2.2, h2.rep⟩

/-- C42. The same for `insert`, where passing uninitialised bytes by value (see C82) is tolerated. -/
theorem C42_insert_accepted {p q : List Char} (hb : Bytes c) (hst : c.strict = false)
    (h : Rep c s.self s.w (utf8 (p ++ q))) (hw : s.w.WF) (ch : Char)
    (hf : RoomFits c s.self.cap (utf8 (p ++ q)).length (lenUtf8 ch)) :
    Sat c (Str.insert c (utf8 p).length ch s)
      (fun _ s' => Rep c s'.self s'.w (utf8 (p ++ ch :: q)))
      (fun s' => s'.w.refusals = s.w.refusals + 1 ∧ Rep c s'.self s'.w (utf8 (p ++ q))) := by
  refine (insert_char_spec hb hst h hw _ ch hf).mono ?_ ?_
  · rintro _ s' ⟨p', q', h1, h2⟩
    obtain ⟨rfl, rfl⟩ := splitsAt_unique h1 ⟨rfl, rfl⟩
    exact h2.rep
  · rintro s' (⟨h1, _⟩ | ⟨_, h2⟩)
    · exact absurd ⟨p, q, rfl, rfl⟩ h1
    · exact ⟨h2.2, h2.rep⟩

/-- C42. `remove` at the offset of a character takes this character out and returns it. -/
theorem C42_remove_accepted {p q : List Char} {ch : Char} (hb : Bytes c)
    (h : Rep c s.self s.w (utf8 (p ++ ch :: q))) (hw : s.w.WF) :
    ∃ s', Str.remove c (utf8 p).length s = .ok ch s' ∧ Rep c s'.self s'.w (utf8 (p ++ q)) := by
  obtain ⟨s', e, h1⟩ := remove_str_spec hb h hw
  exact ⟨s', e, h1.rep⟩

/-- C42. There is no character to remove at the end. -/
theorem C42_remove_end (hb : Bytes c) (h : Rep c s.self s.w (utf8 t)) :
    Str.remove c (utf8 t).length s = .panic s := remove_str_panic hb h (.inr (Nat.le_refl _))

/-- C42. `truncate` at an offset between two characters keeps the text before it. -/
theorem C42_truncate_accepted {p q : List Char} (hb : Bytes c)
    (h : Rep c s.self s.w (utf8 (p ++ q))) (hw : s.w.WF) :
    ∃ s', Str.truncate c (utf8 p).length s = .ok () s' ∧ Rep c s'.self s'.w (utf8 p) := by
  have key := truncate_str_spec hb h hw (utf8 p).length
  have hab : c.MayAbort → False := by rintro ⟨a, ha⟩; rw [hb.noPanic] at ha; cases ha
  cases hr : Str.truncate c (utf8 p).length s with
  | ok a s' =>
    rw [hr] at key
    refine ⟨s', rfl, ?_⟩
    rcases key with ⟨h1, rfl⟩ | ⟨p', q', h1, h2⟩
    · rw [utf8_append, List.length_append] at h1
      have : q = [] := utf8_eq_nil (List.length_eq_zero_iff.mp (by omega))
      subst this
      simpa using h
    · obtain ⟨rfl, _⟩ := splitsAt_unique h1 ⟨rfl, rfl⟩
      exact h2.rep
  | panic s' => rw [hr] at key; exact absurd ⟨p, q, rfl, rfl⟩ key.1
  | abort => rw [hr] at key; exact (hab key).elim
  | ub u => rw [hr] at key; exact key.elim

/-! ## C43: retain -/

/-- C43. `answers f 0 t` are the characters for which `f` answered, with the answers (all of them, in
order, up to a panic); the accepted ones are kept and no others. -/
theorem C43_retain (hb : Bytes c) (h : Rep c s.self s.w (utf8 t)) (hw : s.w.WF)
    (f : Nat → Char → Option Bool) :
    Sat c (Str.retain c f s)
      (fun _ s' => (answers f 0 t).length = t.length ∧
        Rep c s'.self s'.w (utf8 (accepted (answers f 0 t))) ∧ s'.w.refusals = s.w.refusals)
      (fun s' => (answers f 0 t).length < t.length ∧
        Rep c s'.self s'.w (utf8 (accepted (answers f 0 t))) ∧ s'.w.refusals = s.w.refusals) :=
  (retain_spec_str hb h hw f).mono (fun _ _ h => ⟨h.1, h.2.rep, h.2.2⟩)
    (fun _ h => ⟨h.1, h.2.rep, h.2.2⟩)

/-- C43. A predicate without state or panics filters the text, in place: it always returns. -/
theorem C43_retain_filter (hb : Bytes c) (h : Rep c s.self s.w (utf8 t)) (hw : s.w.WF)
    (f : Char → Bool) :
    ∃ s', Str.retain c (fun _ ch => some (f ch)) s = .ok () s' ∧
      Rep c s'.self s'.w (utf8 (t.filter f)) := by
  have ha : ∀ (k : Nat) (t : List Char),
      answers (fun _ ch => some (f ch)) k t = t.map fun ch => (ch, f ch) := by
    intro k t
    induction t generalizing k with
    | nil => rfl
    | cons a t ih => simp [answers, ih]
  have hc : ∀ t : List Char, accepted (t.map fun ch => (ch, f ch)) = t.filter f := by
    intro t
    induction t with
    | nil => rfl
    | cons a t ih =>
      unfold accepted at ih ⊢
      cases hf : f a <;> simp [hf, ih]
  have key := C43_retain hb h hw (fun _ ch => some (f ch))
  rw [ha, hc] at key
  have hab : c.MayAbort → False := by rintro ⟨a, ha⟩; rw [hb.noPanic] at ha; cases ha
  cases hr : Str.retain c (fun _ ch => some (f ch)) s with
  | ok a s' => rw [hr] at key; exact ⟨s', rfl, key.2.1⟩
  | panic s' =>
    rw [hr] at key
    have := key.1
    simp at this
  | abort => rw [hr] at key; exact (hab key).elim
  | ub u => rw [hr] at key; exact key.elim

/-! ## C44, C45: decoding -/

/-- C44. `from_utf8` succeeds exactly if the bytes are the encoding of some text. Then the string is
the vector it was given; otherwise this vector is dropped and its memory freed. -/
theorem C44_from_utf8 {v : VecH} {w : World UInt8} {l : List UInt8} (hb : Bytes c)
    (h : Rep c v w l) :
    ((∃ t, l = utf8 t) ∧ Str.fromUtf8 c v w = .ok (some v) w) ∨
    ((¬ ∃ t, l = utf8 t) ∧
      Str.fromUtf8 c v w = .ok none ((w.free v.ptr).addDrops l)) := by
  have e : (do
      let l ← Str.asStr c
      pure (validate l) : M (VSt UInt8) Bool) ⟨v, w⟩ = .ok (validate l) ⟨v, w⟩ := by
    rw [M.bind_ok (asStr_eq (s := ⟨v, w⟩) hb h)]; rfl
  unfold Str.fromUtf8
  rw [M.bind_ok (withLocal_ok e)]
  simp only
  by_cases hok : validate l = true
  · exact .inl ⟨(validate_iff l).1 hok, by rw [if_pos hok]; rfl⟩
  · refine .inr ⟨fun e => hok ((validate_iff l).2 e), ?_⟩
    rw [if_neg hok]
    have key := drop_spec (s := ⟨v, w⟩) hb.size_ne h
    unfold Str.dropLocal
    cases hr : Vec.drop c ⟨v, w⟩ with
    | ok a s' =>
      rw [hr] at key
      have hw' : s'.w = (w.free v.ptr).addDrops l := key.1
      rw [← hw', M.bind_ok (a := ()) (s' := s'.w)]
      · rfl
      · rw [M.bind_ok (withLocal_ok hr)]; rfl
    | panic s' =>
      rw [hr] at key
      obtain ⟨ys, a, zs, _, h5, _⟩ := key
      rw [hb.noPanic] at h5; cases h5
    | abort =>
      rw [hr] at key
      obtain ⟨a, ha⟩ := key
      rw [hb.noPanic] at ha; cases ha
    | ub u => rw [hr] at key; exact key.elim

/-- C45. The units which encode a text are those where every surrogate is paired. -/
theorem C45_paired (us : List UInt16) : Paired us ↔ ∃ t, us = utf16 t :=
  ⟨fun h => (paired_iff us).1 h, fun h => (paired_iff us).2 h⟩

/-- C45. `from_utf16` succeeds exactly if every surrogate is paired, and gives the text whose encoding
the units are; otherwise it reports an error. -/
theorem C45_from_utf16 {w : World UInt8} (hb : Bytes c) (hw : w.WF) (us : List UInt16)
    (hp : c.strict = true → ∀ u ∈ us, u.toNat < 128) (hf : c.Fits (3 * us.length)) :
    Sat c (Str.fromUtf16 c us w)
      (fun r w' => (Paired us ∧ ∃ v t, r = some v ∧ us = utf16 t ∧ Rep c v w' (utf8 t)) ∨
        (¬ Paired us ∧ r = none))
      (fun w' => w'.refusals = w.refusals + 1) := by
  refine (fromUtf16_spec hb hw us (fun ch hc hs => decode16_ascii us (hp hs) ch hc) hf).mono ?_ ?_
  · rintro (_ | v) w' h1
    · exact .inr ⟨fun h => by
        obtain ⟨t, ht⟩ := (paired_iff us).1 h
        exact h1.1 t ht, rfl⟩
    · obtain ⟨t, h1, h2⟩ := h1
      exact .inl ⟨(paired_iff us).2 ⟨t, h1⟩, v, t, rfl, h1, h2.rep⟩
  · rintro w' ⟨_, h1⟩; exact h1

/-- C45. Hence decoding the UTF-16 encoding of a text gives this text. -/
theorem C45_roundtrip {w : World UInt8} (hb : Bytes c) (hw : w.WF) (t : List Char)
    (hst : c.strict = false) (hf : c.Fits (3 * (utf16 t).length)) :
    Sat c (Str.fromUtf16 c (utf16 t) w)
      (fun r w' => ∃ v, r = some v ∧ Rep c v w' (utf8 t)) (fun w' => w'.refusals = w.refusals + 1) := by
  refine (C45_from_utf16 hb hw (utf16 t) (by simp [hst]) hf).mono ?_ (fun _ h => h)
  rintro r w' (⟨_, v, t', rfl, h1, h2⟩ | ⟨h1, _⟩)
  · rw [← utf16_inj h1] at h2; exact ⟨v, rfl, h2⟩
  · exact absurd ((paired_iff _).2 ⟨t, rfl⟩) h1

/-! ## C46: order -/

/-- C46. Comparison is lexicographic by code points (`Lex`, Verif/Props/VecCmp.lean, unique by
`C23_lex_unique`). -/
theorem C46_cmp {v v' : VecH} {w : World UInt8} {t t' : List Char} (hb : Bytes c)
    (h : Rep c v w (utf8 t)) (h' : Rep c v' w (utf8 t')) :
    ∃ r, Str.cmp c ⟨(v, v'), w⟩ = .ok r ⟨(v, v'), w⟩ ∧
      Lex (fun a b : Char => some (compare a.val.toNat b.val.toNat)) t t' r := by
  refine ⟨sliceCmp byteCmp (utf8 t) (utf8 t'), ?_, ?_⟩
  · unfold Str.cmp Vec.cmp
    rw [M.bind_ok (bothSlices_eq hb.size_ne h h')]; rfl
  · rw [sliceCmp_utf8]
    exact sliceCmp_lex charCmp t t'

/-- C46. Equality is equality of the texts. -/
theorem C46_eq {v v' : VecH} {w : World UInt8} {t t' : List Char} (hb : Bytes c)
    (h : Rep c v w (utf8 t)) (h' : Rep c v' w (utf8 t')) :
    ∃ r, Str.eq c ⟨(v, v'), w⟩ = .ok r ⟨(v, v'), w⟩ ∧ (r = true ↔ t = t') := by
  obtain ⟨r, e, h1⟩ := C23_eq_content (eqT := (· == ·)) hb.size_ne h h' (fun a b => by simp)
  exact ⟨r, e, h1.trans ⟨utf8_inj, fun e => e ▸ rfl⟩⟩

/-- C46. Strings with the same text, in whatever memory, feed the same to the hasher; texts are fed
such that no two different texts feed the same bytes. -/
theorem C46_hash {s' : VSt UInt8} {t' : List Char} {H : Type} (hb : Bytes c)
    (h : Rep c s.self s.w (utf8 t)) (h' : Rep c s'.self s'.w (utf8 t')) :
    (t = t' → ∀ (feed : H → UInt8 → H) (h0 : H), ∃ x,
      Str.hash c feed h0 s = .ok x s ∧ Str.hash c feed h0 s' = .ok x s') ∧
    (t ≠ t' → ∃ x x', Str.hash c (fun l b => l ++ [b]) [] s = .ok x s ∧
      Str.hash c (fun l b => l ++ [b]) [] s' = .ok x' s' ∧ x ≠ x') := by
  have e : ∀ {H : Type} (feed : H → UInt8 → H) (h0 : H) {s : VSt UInt8} {t : List Char},
      Rep c s.self s.w (utf8 t) →
      Str.hash c feed h0 s = .ok (feed ((utf8 t).foldl feed h0) 0xff) s := by
    intro H feed h0 s t h
    unfold Str.hash
    rw [M.bind_ok (asStr_eq hb h)]; rfl
  have f : ∀ (l acc : List UInt8), l.foldl (fun l b => l ++ [b]) acc = acc ++ l := by
    intro l
    induction l with
    | nil => simp
    | cons a l ih => intro acc; simp [ih]
  refine ⟨?_, fun hne => ⟨_, _, e _ _ h, e _ _ h', ?_⟩⟩
  · rintro rfl feed h0
    exact ⟨_, e feed h0 h, e feed h0 h'⟩
  · rw [f, f]
    intro he
    exact hne (utf8_inj (List.append_inj_left' he rfl))

/-! ## C47: conversion from `&str` and `char` -/

/-- C47, partial. The empty text is converted correctly. -/
theorem C47_from_str_partial (hb : Bytes c) (w : World UInt8) :
    ∃ v, Str.fromStr c (utf8 []) w = .ok v w ∧ Rep c v w (utf8 []) :=
  ⟨emptyVec w, by
    unfold Str.fromStr
    rw [fromSlice_eq hb.size_ne]; rfl, emptyVec_rep w⟩

/-- C47 is false: every conversion of a non-empty text panics, and converting a character never
succeeds. -/
theorem C47_from_str_refuted (hb : Bytes c) (w : World UInt8) :
    (∀ t, t ≠ [] → Str.fromStr c (utf8 t) w = .panic w) ∧
    ∀ ch, Str.fromChar c ch w = if c.strict then .ub .uninit else .panic w := by
  refine ⟨fun t ht => ?_, fun ch => ?_⟩
  · unfold Str.fromStr
    rw [fromSlice_eq hb.size_ne, if_neg (fun e => ht (utf8_eq_nil e))]
  · unfold Str.fromChar
    cases hs : c.strict with
    | true =>
      have e : Str.uninitBits c w = .ub .uninit := by simp [Str.uninitBits, hs]
      rw [M.bind_ub e]; rfl
    | false =>
      have e : Str.uninitBits c w = .ok () w := by simp [Str.uninitBits, hs]
      rw [M.bind_ok e, fromSlice_eq hb.size_ne, if_neg]
      · simp
      · intro e
        have := lenUtf8_pos ch
        rw [lenUtf8_eq, e] at this
        cases this

/-! ## C48: split_off -/

/-- C48, partial. At the end of the text an empty string is split off. -/
theorem C48_split_off_partial (hb : Bytes c) (h : Rep c s.self s.w (utf8 t)) :
    ∃ r, Str.splitOff c (utf8 t).length s = .ok r s ∧ Rep c r s.w (utf8 []) := by
  refine ⟨emptyVec s.w, ?_, emptyVec_rep s.w⟩
  unfold Str.splitOff
  rw [M.bind_ok (asStr_eq hb h), M.bind_ok (assert_pos ((isCharBoundary_iff t _).2
    ⟨t, [], by simp, rfl⟩)), splitOff_end h (Nat.le_refl _)]

/-- C48 is false: at every boundary before the end, `split_off` returns the empty string and leaves the
whole text where it was. -/
theorem C48_split_off_refuted {p q : List Char} (hb : Bytes c)
    (h : Rep c s.self s.w (utf8 (p ++ q))) (hw : s.w.WF) (hq : q ≠ []) :
    Sat c (Str.splitOff c (utf8 p).length s)
      (fun r s' => Rep c s'.self s'.w (utf8 (p ++ q)) ∧ Rep c r s'.w (utf8 []))
      (fun s' => s' = s.refuse ∧ ∃ k b, c.grant k b = false) := by
  unfold Str.splitOff
  rw [M.bind_ok (asStr_eq hb h), M.bind_ok (assert_pos ((isCharBoundary_iff _ _).2
    ⟨p, q, rfl, rfl⟩))]
  refine (splitOff_spec hb.size_ne h hw ?_).mono ?_ (fun _ h => h)
  · cases q with
    | nil => exact absurd rfl hq
    | cons ch q =>
      have := utf8_pos ch q
      rw [utf8_append, List.length_append]; omega
  · rintro r s' ⟨h1, h2, h3, _⟩
    exact ⟨by rw [h1]; exact h2, h3⟩

/-! ## C82: uninitialised bytes -/

/-- C82, partial. Pushing an ASCII character, and every other function on the bytes of texts, reads no
uninitialised memory. -/
theorem C82_push_ascii_partial (hb : Bytes c) (h : Rep c s.self s.w (utf8 t)) (hw : s.w.WF)
    (ch : Char) (ha : ch.val.toNat < 128) (hf : c.Fits ((utf8 t).length + 1)) :
    Sat c (Str.push c ch s) (fun _ s' => Rep c s'.self s'.w (utf8 (t ++ [ch])))
      (fun s' => s'.w.refusals = s.w.refusals + 1 ∧ Rep c s'.self s'.w (utf8 t)) := by
  have h1 : lenUtf8 ch = 1 := by simp only [lenUtf8]; rw [if_pos ha]
  refine (push_char_spec hb h hw (fun _ => h1) (by rw [h1]; exact hf)).mono ?_ ?_
  · rintro _ s' h2
    rw [utf8_append, utf8_singleton]; exact h2.rep
  · rintro s' h2
    exact ⟨h2.2, h2.rep⟩

/-- C82 is false: pushing any other character, inserting any character at a valid offset and converting
any character passes uninitialised bytes by value. -/
theorem C82_uninit_refuted (hb : Bytes c) (hst : c.strict = true)
    (h : Rep c s.self s.w (utf8 t)) (ch : Char) :
    (128 ≤ ch.val.toNat → Str.push c ch s = .ub .uninit) ∧
    (∀ i, Boundary t i → Str.insert c i ch s = .ub .uninit) ∧
    Str.fromChar c ch s.w = .ub .uninit := by
  have e : ∀ {σ : Type} (s : σ), Str.uninitBits c s = .ub .uninit := by
    intro σ s; simp [Str.uninitBits, hst]
  refine ⟨fun h1 => ?_, fun i hB => ?_, ?_⟩
  · unfold Str.push
    rw [if_neg, M.bind_ub (e s)]
    simp only [lenUtf8]
    rw [if_neg (by omega)]
    split
    · omega
    · split <;> omega
  · unfold Str.insert
    rw [M.bind_ok (asStr_eq hb h), M.bind_ok (assert_pos ((isCharBoundary_iff _ _).2 hB)),
      M.bind_ub (e s)]
  · unfold Str.fromChar
    rw [M.bind_ub (e s.w)]

/-! ## C83: ranges -/

/-- `m` is the part of the text between the byte offsets `a` and `b`. -/
def Between (t : List Char) (a b : Nat) (m : List Char) : Prop :=
  ∃ p q, t = p ++ m ++ q ∧ (utf8 p).length = a ∧ (utf8 (p ++ m)).length = b

/-- The offsets a range stands for, in a text of `n` bytes. -/
def offsets (n : Nat) : StrRange → Nat × Nat
  | .range a b => (a, b)
  | .to b => (0, b)
  | .from a => (a, n)
  | .full => (0, n)
  | .incl a b => (a, b + 1)
  | .toIncl b => (0, b + 1)

theorem slice_between (l : List UInt8) (hl : l = utf8 t) (a b : Nat) (s : VSt UInt8) :
    (∀ m, Between t a b m → Str.slice l a b s = .ok (utf8 m) s) ∧
    ((∀ m, ¬ Between t a b m) → Str.slice l a b s = .panic s) := by
  subst hl
  constructor
  · rintro m ⟨p, q, rfl, rfl, rfl⟩
    unfold Str.slice
    rw [M.bind_ok (assert_pos ⟨by simp, (isCharBoundary_iff _ _).2 ⟨p, m ++ q, by simp, rfl⟩,
      (isCharBoundary_iff _ _).2 ⟨p ++ m, q, rfl, rfl⟩⟩), M.pure_apply]
    congr 1
    simp
  · intro hno
    unfold Str.slice
    rw [M.bind_panic (assert_neg _)]
    rintro ⟨h1, h2, h3⟩
    obtain ⟨p, q, e1, e2⟩ := (isCharBoundary_iff _ _).1 h2
    obtain ⟨p', q', e3, e4⟩ := (isCharBoundary_iff _ _).1 h3
    subst e1
    rcases List.append_eq_append_iff.mp e3 with ⟨m, e5, e6⟩ | ⟨m, e5, e6⟩
    · exact hno m ⟨p, q', by rw [e6]; simp, e2, by rw [← e5]; exact e4⟩
    · have : (utf8 p).length = (utf8 p').length + (utf8 m).length := by rw [e5]; simp
      have hm : m = [] := utf8_eq_nil (List.length_eq_zero_iff.mp (by omega))
      subst hm
      simp at e5 e6
      subst e5 e6
      exact hno [] ⟨p, q', by simp, e2, by simpa using e4⟩

/-- C83. Indexing with a range whose offsets enclose a part of the text returns this part; indexing
with any other range panics; the string is unchanged. -/
theorem C83_index (hb : Bytes c) (h : Rep c s.self s.w (utf8 t)) (r : StrRange) :
    (∀ m, Between t (offsets (utf8 t).length r).1 (offsets (utf8 t).length r).2 m →
      Str.index c r s = .ok (utf8 m) s) ∧
    ((∀ m, ¬ Between t (offsets (utf8 t).length r).1 (offsets (utf8 t).length r).2 m) →
      Str.index c r s = .panic s) := by
  have hu : (utf8 t).length ≤ c.usizeMax := by
    have := Fits.le_usize hb.size_ne h.fits
    have := h.le_cap
    omega
  have hmax : ∀ {a b m}, Between t a (b + 1) m → b ≠ c.usizeMax := by
    rintro a b m ⟨p, q, rfl, _, h2⟩ rfl
    rw [utf8_append, List.length_append, h2] at hu
    omega
  unfold Str.index
  rw [M.bind_ok (asStr_eq hb h)]
  cases r with
  | range a b => exact slice_between _ rfl a b s
  | to b => exact slice_between _ rfl 0 b s
  | full =>
    refine ⟨?_, fun hno => ?_⟩
    · rintro m ⟨p, q, rfl, h1, h2⟩
      have hp : p = [] := utf8_eq_nil (List.length_eq_zero_iff.mp h1)
      subst hp
      simp only [offsets, utf8_append, List.length_append] at h2
      have hq : q = [] := utf8_eq_nil (List.length_eq_zero_iff.mp (by omega))
      subst hq
      simp
    · exact absurd ⟨[], [], by simp, rfl, by simp [offsets]⟩ (hno t)
  | «from» a =>
    simp only [offsets]
    by_cases hB : Boundary t a
    · rw [M.bind_ok (assert_pos ((isCharBoundary_iff t a).2 hB))]
      refine ⟨?_, fun hno => ?_⟩
      · rintro m ⟨p, q, rfl, h1, h2⟩
        simp only [utf8_append, List.length_append] at h2
        have hq : q = [] := utf8_eq_nil (List.length_eq_zero_iff.mp (by omega))
        subst hq h1
        rw [M.pure_apply]
        congr 1
        simp
      · obtain ⟨p, q, rfl, rfl⟩ := hB
        exact absurd ⟨p, [], by simp, rfl, rfl⟩ (hno q)
    · rw [M.bind_panic (assert_neg (fun e => hB ((isCharBoundary_iff t a).1 e)))]
      refine ⟨?_, fun _ => rfl⟩
      rintro m ⟨p, q, e, h1, _⟩
      exact absurd ⟨p, m ++ q, by rw [e]; simp, h1⟩ hB
  | incl a b =>
    simp only [offsets]
    refine ⟨fun m hm => ?_, fun hno => ?_⟩
    · rw [M.bind_ok (assert_pos (hmax hm))]
      exact (slice_between _ rfl a (b + 1) s).1 m hm
    · by_cases hb : b ≠ c.usizeMax
      · rw [M.bind_ok (assert_pos hb)]
        exact (slice_between _ rfl a (b + 1) s).2 hno
      · rw [M.bind_panic (assert_neg hb)]
  | toIncl b =>
    simp only [offsets]
    refine ⟨fun m hm => ?_, fun hno => ?_⟩
    · rw [M.bind_ok (assert_pos (hmax hm))]
      exact (slice_between _ rfl 0 (b + 1) s).1 m hm
    · by_cases hb : b ≠ c.usizeMax
      · rw [M.bind_ok (assert_pos hb)]
        exact (slice_between _ rfl 0 (b + 1) s).2 hno
      · rw [M.bind_panic (assert_neg hb)]

/-! ## C49: byte-level access -/

theorem validate_ff (t : List Char) : validate (utf8 t ++ [0xff]) = false := by
  induction t with
  | nil => rfl
  | cons ch t ih =>
    rw [utf8_cons, List.append_assoc, enc_validate (enc_utf8 ch)]
    exact ih

/-- C49 is false: `as_mut_vec` is a safe function, and after pushing the byte `0xff` through it the
string holds no text at all. If it was empty, the next `pop` is undefined behaviour. -/
theorem C49_safe_refuted (hb : Bytes c) (h : Rep c s.self s.w (utf8 t)) (hw : s.w.WF)
    (hf : c.Fits ((utf8 t).length + 1)) :
    Sat c (Str.asMutVec (Vec.push c 0xff) s)
      (fun _ s' => Str.asStr c s' = .ok (utf8 t ++ [0xff]) s' ∧
        (∀ t', utf8 t ++ [0xff] ≠ utf8 t') ∧ (t = [] → Str.pop c s' = .ub .contract))
      (fun s' => s'.w.refusals = s.w.refusals + 1) := by
  refine (push_spec hb.size_ne h hw hf 0xff).mono ?_ ?_
  · rintro _ s' ⟨h2, _, _⟩
    have hr := h2.kept.rep
    refine ⟨asStr_eq hb hr, fun t' e => ?_, ?_⟩
    · have := validate_ff t
      rw [e, validate_utf8] at this; cases this
    · rintro rfl
      unfold Str.pop
      rw [M.bind_ok (asStr_eq hb hr)]
      rfl
  · rintro s' ⟨_, rfl, _, _⟩
    rfl

/-- C49, partial. Without byte-level access every string stays valid: see `C40_always_utf8`, which
covers all calls of `TextCmd`. Here for completeness: the bytes of such a string decode. -/
theorem C49_without_bytes_partial {P0 P : Pool UInt8} {hist : TextHistory} (hb : Bytes c)
    (h0 : P0.Initial) (h : TextReaches c P0 hist P) (x : Nat) (v : VecH)
    (hv : P.vecs[x]? = some (some v)) :
    ∃ l, Str.asStr c ⟨v, P.w⟩ = .ok l ⟨v, P.w⟩ ∧ validate l = true := by
  obtain ⟨t, e⟩ := C40_always_utf8 hb h0 h x v hv
  exact ⟨_, e, validate_utf8 t⟩

/-! ## C50: boxed strings -/

/-- C50. A string made from a boxed one holds its text (in the same memory), so extending with boxed
strings is extending with strings. -/
theorem C50_from_boxed {b : Vec.BoxSliceH} {w : World UInt8} (h : BoxRep c b w (utf8 t))
    (ht : t ≠ []) (hf : c.Fits (utf8 t).length) :
    Rep c (Str.ofBoxStr b) w (utf8 t) ∧ (Str.ofBoxStr b).ptr = b.ptr :=
  ⟨h.rep (fun e => ht (utf8_eq_nil e)) hf, rfl⟩

/-! ## Concrete cases -/

/-- The string `hé€` in a buffer of 8 bytes. -/
def sampleStr : VSt UInt8 := stored cfgBytes (utf8 ['h', 'é', '€']) 8

theorem sampleStr_rep : Rep cfgBytes sampleStr.self sampleStr.w (utf8 ['h', 'é', '€']) :=
  stored_rep (by decide) (by decide) (by decide)

theorem sampleStr_wf : sampleStr.w.WF := stored_wf

/-- Offset 2 is inside `é`. -/
example : ¬ Boundary ['h', 'é', '€'] 2 ∧ Str.remove cfgBytes 2 sampleStr = .panic sampleStr :=
  have h : ¬ Boundary ['h', 'é', '€'] 2 := fun e => by
    have := (isCharBoundary_iff _ _).2 e
    revert this; decide
  ⟨h, (C42_rejected cfgBytes_bytes sampleStr_rep h).2.2.1⟩

/-- Offset 3 is in front of `€`. -/
example : ∃ s', Str.remove cfgBytes 3 sampleStr = .ok '€' s' ∧
    Rep cfgBytes s'.self s'.w (utf8 ['h', 'é']) :=
  C42_remove_accepted (p := ['h', 'é']) (q := []) cfgBytes_bytes sampleStr_rep sampleStr_wf

/-- There is room for two more bytes, so nothing has to be allocated. -/
example : RoomFits cfgBytes sampleStr.self.cap (utf8 ['h', 'é', '€']).length (utf8 ['é']).length ∧
    cfgBytes.strict = false := by decide

example : ∃ s', Str.truncate cfgBytes 3 sampleStr = .ok () s' ∧
    Rep cfgBytes s'.self s'.w (utf8 ['h', 'é']) :=
  C42_truncate_accepted (p := ['h', 'é']) (q := ['€']) cfgBytes_bytes sampleStr_rep sampleStr_wf

example : ∃ s', Str.retain cfgBytes (fun _ ch => some (ch != 'é')) sampleStr = .ok () s' ∧
    Rep cfgBytes s'.self s'.w (utf8 ['h', '€']) :=
  C43_retain_filter cfgBytes_bytes sampleStr_rep sampleStr_wf (· != 'é')

/-- A predicate that panics at its third call, after rejecting the first character. -/
example : ∃ s', Str.retain cfgBytes (fun k _ => if k = 2 then none else some (k == 1)) sampleStr
    = .panic s' ∧ Str.asStr cfgBytes s' = .ok (utf8 ['é']) s' := by
  have key := C43_retain cfgBytes_bytes sampleStr_rep sampleStr_wf
    (fun k _ => if k = 2 then none else some (k == 1))
  cases hr : Str.retain cfgBytes (fun k _ => if k = 2 then none else some (k == 1)) sampleStr with
  | panic s' => rw [hr] at key; exact ⟨s', rfl, asStr_eq cfgBytes_bytes key.2.1⟩
  | ok _ s' => rw [hr] at key; exact absurd key.1 (by decide)
  | abort => rw [hr] at key; obtain ⟨a, ha⟩ := key; cases ha
  | ub u => rw [hr] at key; exact key.elim

/-- Valid bytes, and bytes which encode a surrogate. -/
example : (∃ t, ([0x68, 0xc3, 0xa9] : List UInt8) = utf8 t) ∧
    ¬ ∃ t, ([0xed, 0xa0, 0x80] : List UInt8) = utf8 t :=
  ⟨⟨['h', 'é'], by decide⟩, fun e => absurd ((validate_iff _).2 e) (by decide)⟩

example : Paired [0x61, 0xd83d, 0xde00] ∧ ¬ Paired [0xd83d, 0x61] ∧ utf16 ['a', '😀'] =
    [0x61, 0xd83d, 0xde00] := by
  refine ⟨.plain (by decide) (.pair (by decide) (by decide) (by decide) (by decide) .nil), ?_,
    by decide⟩
  intro h
  cases h with
  | plain h _ => revert h; decide
  | pair _ _ h _ _ => revert h; decide

/-- Code point order, where UTF-16 order would be different. -/
example : ∃ r, Str.cmp cfgBytes ⟨(sampleStr.self, sampleStr.self), sampleStr.w⟩ =
      .ok r ⟨(sampleStr.self, sampleStr.self), sampleStr.w⟩ ∧
    Lex (fun a b : Char => some (compare a.val.toNat b.val.toNat)) ['h', 'é', '€'] ['h', 'é', '€'] r :=
  C46_cmp cfgBytes_bytes sampleStr_rep sampleStr_rep

example : Str.fromStr cfgBytes (utf8 ['h']) worldBytes = .panic worldBytes ∧
    Str.fromChar cfgBytes 'h' worldBytes = .panic worldBytes :=
  ⟨(C47_from_str_refuted cfgBytes_bytes _).1 _ (by decide),
    (C47_from_str_refuted cfgBytes_bytes _).2 _⟩

/-- Splitting `hé€` in front of `€`: the string still holds everything. -/
example : ∃ r s', Str.splitOff cfgBytes 3 sampleStr = .ok r s' ∧
    Str.asStr cfgBytes s' = .ok (utf8 ['h', 'é', '€']) s' ∧ Rep cfgBytes r s'.w [] := by
  have key := C48_split_off_refuted (p := ['h', 'é']) (q := ['€']) cfgBytes_bytes sampleStr_rep
    sampleStr_wf (by decide)
  change Sat _ (Str.splitOff cfgBytes 3 sampleStr) _ _ at key
  cases hr : Str.splitOff cfgBytes 3 sampleStr with
  | ok r s' => rw [hr] at key; exact ⟨r, s', rfl, asStr_eq cfgBytes_bytes key.1, key.2⟩
  | panic s' => rw [hr] at key; obtain ⟨_, k, b, h⟩ := key; cases h
  | abort => rw [hr] at key; obtain ⟨a, ha⟩ := key; cases ha
  | ub u => rw [hr] at key; exact key.elim

/-- The same bytes, where the rules for uninitialised memory count. -/
def cfgBytesStrict : Cfg UInt8 := { cfgBytes with strict := true }

example : Str.push cfgBytesStrict 'é' sampleStr = .ub .uninit ∧
    Str.insert cfgBytesStrict 3 'x' sampleStr = .ub .uninit := by
  have h := C82_uninit_refuted (c := cfgBytesStrict) (s := sampleStr) (t := ['h', 'é', '€'])
    ⟨rfl, fun _ => rfl, fun _ _ => rfl⟩ rfl
    (stored_rep (c := cfgBytesStrict) (by decide) (by decide) (by decide))
  exact ⟨(h 'é').1 (by decide), (h 'x').2.1 3 ⟨['h', 'é'], ['€'], rfl, rfl⟩⟩

example : Str.index cfgBytes (.incl 1 5) sampleStr = .ok (utf8 ['é', '€']) sampleStr ∧
    Str.index cfgBytes (.from 2) sampleStr = .panic sampleStr := by
  refine ⟨(C83_index cfgBytes_bytes sampleStr_rep (.incl 1 5)).1 _ ⟨['h'], [], rfl, rfl, rfl⟩,
    (C83_index cfgBytes_bytes sampleStr_rep (.from 2)).2 ?_⟩
  rintro m ⟨p, q, e, h1, _⟩
  have : Boundary ['h', 'é', '€'] 2 := ⟨p, m ++ q, by rw [e]; simp, h1⟩
  have := (isCharBoundary_iff _ _).2 this
  revert this; decide

/-- An empty string with room, and what a safe client can do to it. -/
example : ∃ s', Str.asMutVec (Vec.push cfgBytes 0xff) (stored cfgBytes [] 4) = .ok () s' ∧
    Str.pop cfgBytes s' = .ub .contract := by
  have key := C49_safe_refuted (t := []) cfgBytes_bytes
    (stored_rep (c := cfgBytes) (l := []) (cap := 4) (by decide) (by decide) (by decide)) stored_wf
    (by decide)
  cases hr : Str.asMutVec (Vec.push cfgBytes 0xff) (stored cfgBytes [] 4) with
  | ok a s' => rw [hr] at key; exact ⟨s', rfl, key.2.2 rfl⟩
  | panic s' =>
    have : (match Str.asMutVec (Vec.push cfgBytes 0xff) (stored cfgBytes [] 4) with
      | .ok _ _ => true | _ => false) = true := by decide +kernel
    rw [hr] at this; cases this
  | abort => rw [hr] at key; obtain ⟨a, ha⟩ := key; cases ha
  | ub u => rw [hr] at key; exact key.elim

end Lokky
