import Verif.Model.TextPool
import Verif.Proofs.Utf8
import Verif.Proofs.VecPool
import Verif.Proofs.VecMove

/-!
# Every function of `String` on bytes and texts
-/

namespace Lokky
open Utf8 Spec
variable {c : Cfg UInt8}

theorem Bytes.size_ne (hb : Bytes c) : c.size ≠ 0 := by rw [hb.size]; decide

/-- The call succeeded as far as memory is concerned; now the bytes are `l'`. -/
def Kept (c : Cfg UInt8) (l' : List UInt8) (s s' : VSt UInt8) : Prop :=
  (∃ d, Trans c l' d s s') ∧ s'.w.refusals = s.w.refusals

/-- An allocation was refused; now the bytes are `l'`. -/
def Refused (c : Cfg UInt8) (l' : List UInt8) (s s' : VSt UInt8) : Prop :=
  (∃ d, Trans c l' d s s') ∧ s'.w.refusals = s.w.refusals + 1

theorem Kept.refl {s : VSt UInt8} {l : List UInt8} (h : Rep c s.self s.w l) (hw : s.w.WF) :
    Kept c l s s := ⟨⟨_, Trans.refl h hw⟩, rfl⟩

theorem Kept.rep {l' : List UInt8} {s s' : VSt UInt8} (h : Kept c l' s s') :
    Rep c s'.self s'.w l' := h.1.elim fun _ h => h.rep

theorem Kept.wf {l' : List UInt8} {s s' : VSt UInt8} (h : Kept c l' s s') : s'.w.WF :=
  h.1.elim fun _ h => h.wf

theorem Refused.rep {l' : List UInt8} {s s' : VSt UInt8} (h : Refused c l' s s') :
    Rep c s'.self s'.w l' := h.1.elim fun _ h => h.rep

theorem Kept.trans {l l' : List UInt8} {s s' s'' : VSt UInt8} (hw : s.w.WF) (h : Kept c l s s')
    (h' : Kept c l' s' s'') : Kept c l' s s'' := by
  obtain ⟨⟨d, h1⟩, h2⟩ := h
  obtain ⟨⟨d', h3⟩, h4⟩ := h'
  exact ⟨⟨_, h1.trans hw h3⟩, h4.trans h2⟩

theorem Kept.refused {l l' : List UInt8} {s s' s'' : VSt UInt8} (hw : s.w.WF) (h : Kept c l s s')
    (h' : Refused c l' s' s'') : Refused c l' s s'' := by
  obtain ⟨⟨d, h1⟩, h2⟩ := h
  obtain ⟨⟨d', h3⟩, h4⟩ := h'
  exact ⟨⟨_, h1.trans hw h3⟩, by rw [h4, h2]⟩

theorem Reserved.kept {l : List UInt8} {s s' : VSt UInt8} (h : Reserved c l s s') :
    Kept c l s s' := ⟨⟨_, h.trans⟩, h.refusals⟩

theorem refuse_refused {s : VSt UInt8} {l : List UInt8} (h : Rep c s.self s.w l) (hw : s.w.WF) :
    Refused c l s s.refuse := ⟨⟨_, Trans.refuse h hw⟩, rfl⟩

theorem Cloned.bytes (hb : Bytes c) {xs ys : List UInt8} (h : Cloned c xs ys) : ys = xs := by
  induction h with
  | nil => rfl
  | cons k h _ ih =>
    rw [hb.clone] at h
    cases h
    rw [ih]

/-! ## Appending -/

theorem pushStr_spec {s : VSt UInt8} {l : List UInt8} (hb : Bytes c) (h : Rep c s.self s.w l)
    (hw : s.w.WF) (xs : List UInt8) (hf : c.Fits (l.length + xs.length)) :
    Sat c (Str.pushStr c xs s) (fun _ s' => Kept c (l ++ xs) s s') (fun s' => Refused c l s s') := by
  refine (extendFromSlice_spec hb.size_ne h hw xs hf).mono ?_ ?_
  · rintro _ s' ⟨ys, h1, h2, h3, _⟩
    rw [h1.bytes hb] at h2
    exact ⟨⟨_, h2⟩, h3⟩
  · rintro s' (⟨rfl, _, _⟩ | ⟨pre, a, post, ys, _, _, ⟨k, h3⟩, _, _⟩)
    · exact refuse_refused h hw
    · rw [hb.clone] at h3; cases h3

theorem push_char_spec {s : VSt UInt8} {l : List UInt8} (hb : Bytes c) (h : Rep c s.self s.w l)
    (hw : s.w.WF) {ch : Char} (hp : PushOk c ch) (hf : c.Fits (l.length + lenUtf8 ch)) :
    Sat c (Str.push c ch s) (fun _ s' => Kept c (l ++ String.utf8EncodeChar ch) s s')
      (fun s' => Refused c l s s') := by
  unfold Str.push
  by_cases h1 : lenUtf8 ch = 1
  · rw [if_pos h1]
    have he : String.utf8EncodeChar ch = [.ofNat ch.val.toNat] := by
      symm
      apply enc_code
      have : code ch < 0x80 := by
        unfold lenUtf8 at h1
        simp only at h1
        unfold code
        split at h1
        · assumption
        · split at h1
          · omega
          · split at h1 <;> omega
      exact .one this (by simp [code] at *; omega)
    rw [he]
    refine (push_spec hb.size_ne h hw (by rw [h1] at hf; exact hf) _).mono ?_ ?_
    · rintro _ s' ⟨h2, _, _⟩
      exact h2.kept
    · rintro s' ⟨h2, rfl, _, _⟩
      exact ⟨⟨_, h2⟩, rfl⟩
  · rw [if_neg h1]
    have hstr : c.strict = false := by
      cases hc : c.strict with
      | false => rfl
      | true => exact absurd (hp hc) h1
    have e : Str.uninitBits c s = .ok () s := by simp [Str.uninitBits, hstr]
    rw [M.bind_ok e]
    exact pushStr_spec hb h hw _ (by rw [← lenUtf8_eq]; exact hf)

theorem pushAll_spec {s : VSt UInt8} {l : List UInt8} (hb : Bytes c) (h : Rep c s.self s.w l)
    (hw : s.w.WF) (t : List Char) (hp : ∀ ch ∈ t, PushOk c ch)
    (hf : c.Fits (l.length + (utf8 t).length)) :
    Sat c (Str.pushAll c t s) (fun _ s' => Kept c (l ++ utf8 t) s s')
      (fun s' => ∃ p q, t = p ++ q ∧ Refused c (l ++ utf8 p) s s') := by
  induction t generalizing s l with
  | nil => simpa [Str.pushAll, Sat] using Kept.refl h hw
  | cons ch t ih =>
    have e : (utf8 (ch :: t)).length = lenUtf8 ch + (utf8 t).length := by
      simp [lenUtf8_eq]
    rw [e] at hf
    unfold Str.pushAll
    refine Sat.bind' (push_char_spec hb h hw (hp ch (by simp)) (Fits.mono hf (by omega))) ?_ ?_
    · intro s' h1
      exact ⟨[], ch :: t, rfl, by simpa using h1⟩
    · intro _ s' h1
      refine (ih h1.rep h1.wf (fun d hd => hp d (by simp [hd]))
        (by rw [List.length_append, ← lenUtf8_eq]; exact Fits.mono hf (by omega))).mono ?_ ?_
      · intro _ s'' h2
        have := h1.trans hw h2
        simpa using this
      · rintro s'' ⟨p, q, rfl, h2⟩
        refine ⟨ch :: p, q, rfl, ?_⟩
        have := h1.refused hw h2
        simpa using this

theorem pushStrs_spec {s : VSt UInt8} {l : List UInt8} (hb : Bytes c) (h : Rep c s.self s.w l)
    (hw : s.w.WF) (ts : List (List UInt8)) (hf : c.Fits (l.length + ts.flatten.length)) :
    Sat c (Str.pushStrs c ts s) (fun _ s' => Kept c (l ++ ts.flatten) s s')
      (fun s' => ∃ p q, ts = p ++ q ∧ Refused c (l ++ p.flatten) s s') := by
  induction ts generalizing s l with
  | nil => simpa [Str.pushStrs, Sat] using Kept.refl h hw
  | cons x ts ih =>
    rw [List.flatten_cons, List.length_append] at hf
    unfold Str.pushStrs
    refine Sat.bind' (pushStr_spec hb h hw x (Fits.mono hf (by omega))) ?_ ?_
    · intro s' h1
      exact ⟨[], x :: ts, rfl, by simpa using h1⟩
    · intro _ s' h1
      refine (ih h1.rep h1.wf (by rw [List.length_append]; exact Fits.mono hf (by omega))).mono ?_ ?_
      · intro _ s'' h2
        have := h1.trans hw h2
        simpa using this
      · rintro s'' ⟨p, q, rfl, h2⟩
        refine ⟨x :: p, q, rfl, ?_⟩
        have := h1.refused hw h2
        simpa using this

theorem extendChars_spec {s : VSt UInt8} {l : List UInt8} (hb : Bytes c) (h : Rep c s.self s.w l)
    (hw : s.w.WF) (it : Iter Char) (hp : ∀ ch ∈ it.items, PushOk c ch)
    (hr : RoomFits c s.self.cap l.length it.hint)
    (hf : c.Fits (l.length + (utf8 it.items).length)) :
    Sat c (Str.extendChars c it s)
      (fun _ s' => it.boom = false ∧ Kept c (l ++ utf8 it.items) s s')
      (fun s' => (it.boom = true ∧ Kept c (l ++ utf8 it.items) s s') ∨
        ∃ p q, it.items = p ++ q ∧ Refused c (l ++ utf8 p) s s') := by
  unfold Str.extendChars
  refine Sat.bind' (reserve_spec hb.size_ne h hw hr) ?_ ?_
  · rintro s' ⟨rfl, _, _⟩
    exact Or.inr ⟨[], it.items, rfl, by simpa using refuse_refused h hw⟩
  · rintro _ s' ⟨h1, _, _⟩
    refine Sat.bind' (pushAll_spec hb h1.trans.rep h1.trans.wf it.items hp hf) ?_ ?_
    · rintro s'' ⟨p, q, e, h2⟩
      exact Or.inr ⟨p, q, e, h1.kept.refused hw h2⟩
    · rintro _ s'' h2
      have h3 := h1.kept.trans hw h2
      cases hbm : it.boom with
      | false => exact ⟨rfl, h3⟩
      | true => exact Or.inl ⟨rfl, h3⟩

theorem extendStrs_spec {s : VSt UInt8} {l : List UInt8} (hb : Bytes c) (h : Rep c s.self s.w l)
    (hw : s.w.WF) (it : Iter (List UInt8)) (hf : c.Fits (l.length + it.items.flatten.length)) :
    Sat c (Str.extendStrs c it s)
      (fun _ s' => it.boom = false ∧ Kept c (l ++ it.items.flatten) s s')
      (fun s' => (it.boom = true ∧ Kept c (l ++ it.items.flatten) s s') ∨
        ∃ p q, it.items = p ++ q ∧ Refused c (l ++ p.flatten) s s') := by
  unfold Str.extendStrs
  refine Sat.bind' (pushStrs_spec hb h hw it.items hf) ?_ ?_
  · rintro s' h1
    exact Or.inr h1
  · rintro _ s' h1
    cases hbm : it.boom with
    | false => exact ⟨rfl, h1⟩
    | true => exact Or.inl ⟨rfl, h1⟩

/-! ## Removing at the end -/

theorem setLen_spec {s : VSt UInt8} {l : List UInt8} (hb : Bytes c) (h : Rep c s.self s.w l)
    (hw : s.w.WF) {k : Nat} (hk : k ≤ l.length) :
    ∃ s', Vec.onBuf c (Buf.setLen c k) s = .ok () s' ∧ Kept c (l.take k) s s' := by
  obtain ⟨s', h1, h2, _⟩ := onBuf_ok (a := ()) (l' := l.take k) (m := Buf.setLen c k) hb.size_ne h hw
    (fun b hr _ => ⟨_, Buf.setLen_eq (by have := hr.le_cap; omega), hr.cut hk, rfl⟩)
  exact ⟨s', h1, h2.kept⟩

theorem asStr_eq {s : VSt UInt8} {l : List UInt8} (hb : Bytes c) (h : Rep c s.self s.w l) :
    Str.asStr c s = .ok l s := asSlice_spec hb.size_ne h

theorem len_eq {s : VSt UInt8} {l : List UInt8} (h : Rep c s.self s.w l) :
    Vec.len s = .ok l.length s := by
  unfold Vec.len
  rw [M.gets_apply, h.len]

theorem pop_nil {s : VSt UInt8} (hb : Bytes c) (h : Rep c s.self s.w (utf8 [])) :
    Str.pop c s = .ok none s := by
  unfold Str.pop
  rw [M.bind_ok (asStr_eq hb h)]
  rfl

theorem pop_snoc {s : VSt UInt8} {t : List Char} {ch : Char} (hb : Bytes c)
    (h : Rep c s.self s.w (utf8 (t ++ [ch]))) (hw : s.w.WF) :
    ∃ s', Str.pop c s = .ok (some ch) s' ∧ Kept c (utf8 t) s s' := by
  have el : (utf8 (t ++ [ch])).length - lenUtf8 ch = (utf8 t).length := by
    rw [lenUtf8_eq]; simp
  obtain ⟨s', h1, h2⟩ := setLen_spec (k := (utf8 t).length) hb h hw (by simp)
  refine ⟨s', ?_, by simpa using h2⟩
  unfold Str.pop
  have e : nextBack (utf8 (t ++ [ch])) = .ch ch := by
    rw [utf8_append, utf8_singleton]; exact nextBack_utf8 ch _
  rw [M.bind_ok (asStr_eq hb h), e]
  simp only
  rw [M.bind_ok (len_eq h), M.bind_ok (usub_eq (by rw [lenUtf8_eq]; simp)), el, M.bind_ok h1]
  rfl

theorem clear_str_spec {s : VSt UInt8} {l : List UInt8} (hb : Bytes c) (h : Rep c s.self s.w l)
    (hw : s.w.WF) :
    Sat c (Str.clear c s) (fun _ s' => Kept c [] s s') (fun _ => False) := by
  refine (clear_spec hb.size_ne h hw).mono ?_ ?_
  · rintro _ s' ⟨h1, _, h2, _⟩
    exact ⟨⟨_, h1⟩, h2⟩
  · rintro s' ⟨ys, a, zs, _, h5, _⟩
    rw [hb.noPanic] at h5; cases h5

theorem truncate_str_spec {s : VSt UInt8} {t : List Char} (hb : Bytes c)
    (h : Rep c s.self s.w (utf8 t)) (hw : s.w.WF) (k : Nat) :
    Sat c (Str.truncate c k s)
      (fun _ s' => ((utf8 t).length ≤ k ∧ s' = s) ∨
        ∃ p q, SplitsAt t k p q ∧ Kept c (utf8 p) s s')
      (fun s' => ¬ Boundary t k ∧ k < (utf8 t).length ∧ s' = s) := by
  unfold Str.truncate
  rw [M.bind_ok (len_eq h)]
  by_cases hk : k < (utf8 t).length
  · rw [if_pos hk, M.bind_ok (asStr_eq hb h)]
    by_cases hB : Boundary t k
    · rw [M.bind_ok (assert_pos ((isCharBoundary_iff t k).2 hB))]
      obtain ⟨p, q, hpq⟩ := hB
      refine (truncate_spec hb.size_ne h hw k).mono ?_ ?_
      · rintro _ s' ⟨h1, _, h2, _⟩
        rw [(splitsAt_bytes hpq).1] at h1
        exact Or.inr ⟨p, q, hpq, ⟨_, h1⟩, h2⟩
      · rintro s' ⟨_, _, _, _, a, _, h5⟩
        rw [hb.noPanic] at h5; cases h5
    · rw [M.bind_panic (assert_neg (fun e => hB ((isCharBoundary_iff t k).1 e)))]
      exact ⟨hB, hk, rfl⟩
  · rw [if_neg hk]
    exact Or.inl ⟨by omega, rfl⟩

/-! ## Editing in the middle -/

theorem remove_str_spec {s : VSt UInt8} {p q : List Char} {ch : Char} (hb : Bytes c)
    (h : Rep c s.self s.w (utf8 (p ++ ch :: q))) (hw : s.w.WF) :
    ∃ s', Str.remove c (utf8 p).length s = .ok ch s' ∧ Kept c (utf8 (p ++ q)) s s' := by
  have hB : isCharBoundary (utf8 (p ++ ch :: q)) (utf8 p).length = true :=
    (isCharBoundary_iff _ _).2 ⟨p, ch :: q, rfl, rfl⟩
  have hn : next ((utf8 (p ++ ch :: q)).drop (utf8 p).length) = .ch ch := by
    rw [utf8_append, List.drop_left, utf8_cons]; exact next_utf8 ch _
  have hlen : (utf8 (p ++ ch :: q)).length = (utf8 p).length + lenUtf8 ch + (utf8 q).length := by
    rw [lenUtf8_eq]; simp; omega
  have hu : (utf8 (p ++ ch :: q)).length ≤ c.usizeMax := by
    have := Fits.le_usize hb.size_ne h.fits
    have := h.le_cap
    omega
  obtain ⟨s', h1, h2, _⟩ := onBuf_ok (a := ()) (l' := utf8 (p ++ q))
    (m := (do Buf.copy c ((utf8 p).length + lenUtf8 ch) (utf8 p).length (utf8 q).length
              Buf.setLen c ((utf8 p).length + (utf8 q).length) : M (Buf UInt8) Unit)) hb.size_ne h hw
    (fun b hr _ => by
      obtain ⟨rest, hrest⟩ := hr.holds
      have hsl : b.slots.length = (utf8 p).length + lenUtf8 ch + (utf8 q).length + rest.length := by
        rw [hrest, List.length_append, List.length_map, hlen]
      have hcap := hr.cap
      refine ⟨?_, ?_, ?_, ?_⟩
      rotate_left
      · rw [M.bind_ok (Buf.copy_eq hb.size_ne (by omega) (by omega)),
          Buf.setLen_eq (by simp only; omega)]
      · refine ⟨⟨by simp, ?_, ?_⟩, rfl, by simp⟩
        · simp only [List.length_append, List.length_take, List.length_drop]; omega
        · refine ⟨b.slots.drop ((utf8 p).length + (utf8 q).length), ?_⟩
          simp only
          congr 1
          rw [hrest, utf8_append, utf8_cons, utf8_append, lenUtf8_eq]
          simp [List.take_append, List.drop_append]
      · rfl)
  refine ⟨s', ?_, h2.kept⟩
  unfold Str.remove
  rw [M.bind_ok (asStr_eq hb h), M.bind_ok (assert_pos hB), hn]
  simp only
  have e1 : (utf8 (p ++ ch :: q)).length - ((utf8 p).length + lenUtf8 ch) = (utf8 q).length := by omega
  have e2 : (utf8 p).length + lenUtf8 ch - (utf8 p).length = lenUtf8 ch := by omega
  have e3 : (utf8 (p ++ ch :: q)).length - lenUtf8 ch = (utf8 p).length + (utf8 q).length := by omega
  rw [M.bind_ok (uadd_eq (by omega)), M.bind_ok (len_eq h), M.bind_ok (usub_eq (by omega)), e1,
    M.bind_ok (usub_eq (by omega)), e2, M.bind_ok (usub_eq (by omega)), e3, M.bind_ok h1]
  rfl

theorem remove_str_panic {s : VSt UInt8} {t : List Char} (hb : Bytes c)
    (h : Rep c s.self s.w (utf8 t)) {i : Nat} (hi : ¬ Boundary t i ∨ (utf8 t).length ≤ i) :
    Str.remove c i s = .panic s := by
  unfold Str.remove
  rw [M.bind_ok (asStr_eq hb h)]
  by_cases hB : Boundary t i
  · have hi' : (utf8 t).length ≤ i := by
      rcases hi with hi | hi
      · exact absurd hB hi
      · exact hi
    rw [M.bind_ok (assert_pos ((isCharBoundary_iff t i).2 hB)), List.drop_eq_nil_of_le hi']
    rfl
  · rw [M.bind_panic (assert_neg (fun e => hB ((isCharBoundary_iff t i).1 e)))]

theorem insertBytes_spec {s : VSt UInt8} {l : List UInt8} (hb : Bytes c) (h : Rep c s.self s.w l)
    (hw : s.w.WF) {i : Nat} (hi : i ≤ l.length) (bs : List UInt8)
    (hf : RoomFits c s.self.cap l.length bs.length) :
    Sat c (Str.insertBytes c i bs s)
      (fun _ s' => Kept c (l.take i ++ bs ++ l.drop i) s s') (fun s' => Refused c l s s') := by
  unfold Str.insertBytes
  rw [M.bind_ok (len_eq h)]
  refine Sat.bind' (reserve_spec hb.size_ne h hw hf) ?_ ?_
  · rintro s' ⟨rfl, _, _⟩
    exact refuse_refused h hw
  · rintro _ s1 ⟨h1, hcap, _⟩
    have hroom : l.length + bs.length ≤ s1.self.cap := by
      rw [hcap]
      split
      · unfold amortized; omega
      · omega
    have hu : s1.self.cap ≤ c.usizeMax := Fits.le_usize hb.size_ne h1.trans.rep.fits
    rw [M.bind_ok (uadd_eq (by omega)), M.bind_ok (usub_eq hi), M.bind_ok (uadd_eq (by omega))]
    obtain ⟨s', e1, e2, _⟩ := onBuf_ok (a := ()) (l' := l.take i ++ bs ++ l.drop i)
      (m := (do Buf.copy c i (i + bs.length) (l.length - i)
                Buf.copyFrom c (bs.map some) i bs.length
                Buf.setLen c (l.length + bs.length) : M (Buf UInt8) Unit)) hb.size_ne h1.trans.rep
      h1.trans.wf
      (fun b hr hbc => by
        obtain ⟨rest, hrest⟩ := hr.holds
        have hsl : b.slots.length = l.length + rest.length := by
          rw [hrest, List.length_append, List.length_map]
        have hcap := hr.cap
        have hlen : (b.slots.take (i + bs.length) ++ (b.slots.drop i).take (l.length - i) ++
            b.slots.drop (i + bs.length + (l.length - i))).length = b.slots.length := by
          simp only [List.length_append, List.length_take, List.length_drop]; omega
        refine ⟨?_, ?_, ?_, ?_⟩
        rotate_left
        · rw [M.bind_ok (Buf.copy_eq hb.size_ne (by omega) (by omega)),
            M.bind_ok (Buf.copyFrom_eq hb.size_ne (by simp) (by simp only; rw [hlen]; omega)),
            Buf.setLen_eq (by simp only; omega)]
        · refine ⟨⟨by simp; omega, ?_, ?_⟩, rfl, by simp⟩
          · simp only [List.length_append, List.length_take, List.length_drop, List.length_map]
            omega
          · refine ⟨b.slots.drop (l.length + bs.length), ?_⟩
            simp only
            have f1 : ∀ X Y : List (Option UInt8), (b.slots.take (i + bs.length) ++ X ++ Y).take i
                = (l.take i).map some := by
              intro X Y
              rw [List.append_assoc, List.take_append_of_le_length (by
                rw [List.length_take]; omega), List.take_take, hrest]
              rw [Nat.min_eq_left (by omega), List.take_append_of_le_length (by simpa using hi),
                List.map_take]
            have f2 : ∀ X : List (Option UInt8),
                (b.slots.take (i + bs.length) ++ X).drop (i + bs.length) = X := by
              intro X
              rw [List.drop_append, List.drop_eq_nil_of_le (by rw [List.length_take]; omega),
                List.length_take, Nat.min_eq_left (by omega), Nat.sub_self, List.drop_zero,
                List.nil_append]
            have f3 : (b.slots.drop i).take (l.length - i) = (l.drop i).map some := by
              rw [hrest, List.drop_append_of_le_length (by simpa using hi),
                List.take_append_of_le_length (by simp), List.take_of_length_le (by simp),
                List.map_drop]
            rw [f1, List.append_assoc (b.slots.take (i + bs.length)), f2, f3]
            have f4 : i + bs.length + (l.length - i) = l.length + bs.length := by omega
            have f5 : (bs.map some).take bs.length = bs.map some :=
              List.take_of_length_le (by simp)
            rw [f4, f5]
            simp only [List.map_append, List.append_assoc]
        · rfl)
    rw [e1]
    exact h1.kept.trans hw e2.kept

theorem insertStr_spec {s : VSt UInt8} {t : List Char} (hb : Bytes c)
    (h : Rep c s.self s.w (utf8 t)) (hw : s.w.WF) (i : Nat) (x : List Char)
    (hf : RoomFits c s.self.cap (utf8 t).length (utf8 x).length) :
    Sat c (Str.insertStr c i (utf8 x) s)
      (fun _ s' => ∃ p q, SplitsAt t i p q ∧ Kept c (utf8 (p ++ x ++ q)) s s')
      (fun s' => (¬ Boundary t i ∧ s' = s) ∨ (Boundary t i ∧ Refused c (utf8 t) s s')) := by
  unfold Str.insertStr
  rw [M.bind_ok (asStr_eq hb h)]
  by_cases hB : Boundary t i
  · rw [M.bind_ok (assert_pos ((isCharBoundary_iff t i).2 hB))]
    obtain ⟨p, q, hpq⟩ := hB
    have hB := (⟨p, q, hpq⟩ : Boundary t i)
    obtain ⟨e1, e2, e3⟩ := splitsAt_bytes hpq
    refine (insertBytes_spec hb h hw e3 (utf8 x) hf).mono ?_ ?_
    · intro _ s' h1
      rw [e1, e2] at h1
      exact ⟨p, q, hpq, by simpa using h1⟩
    · intro s' h1
      exact Or.inr ⟨hB, h1⟩
  · rw [M.bind_panic (assert_neg (fun e => hB ((isCharBoundary_iff t i).1 e)))]
    exact Or.inl ⟨hB, rfl⟩

theorem insert_char_spec {s : VSt UInt8} {t : List Char} (hb : Bytes c) (hst : c.strict = false)
    (h : Rep c s.self s.w (utf8 t)) (hw : s.w.WF) (i : Nat) (ch : Char)
    (hf : RoomFits c s.self.cap (utf8 t).length (lenUtf8 ch)) :
    Sat c (Str.insert c i ch s)
      (fun _ s' => ∃ p q, SplitsAt t i p q ∧ Kept c (utf8 (p ++ ch :: q)) s s')
      (fun s' => (¬ Boundary t i ∧ s' = s) ∨ (Boundary t i ∧ Refused c (utf8 t) s s')) := by
  have e : Str.insert c i ch s = Str.insertStr c i (utf8 [ch]) s := by
    unfold Str.insert Str.insertStr
    rw [utf8_singleton, M.bind_ok (asStr_eq hb h), M.bind_ok (asStr_eq hb h)]
    by_cases hB : isCharBoundary (utf8 t) i = true
    · have e : Str.uninitBits c s = .ok () s := by simp [Str.uninitBits, hst]
      rw [M.bind_ok (assert_pos hB), M.bind_ok (assert_pos hB), M.bind_ok e]
    · rw [M.bind_panic (assert_neg hB), M.bind_panic (assert_neg hB)]
  rw [e]
  refine (insertStr_spec hb h hw i [ch] (by rw [utf8_singleton, ← lenUtf8_eq]; exact hf)).mono ?_ ?_
  · rintro _ s' ⟨p, q, h1, h2⟩
    exact ⟨p, q, h1, by simpa using h2⟩
  · exact fun _ h => h

/-! ## retain -/

theorem setLenOnDrop_spec {s : VSt UInt8} {l : List UInt8} (hb : Bytes c) (h : Rep c s.self s.w l)
    (hw : s.w.WF) {idx del : Nat} (h1 : del ≤ idx) (h2 : idx ≤ l.length) :
    ∃ s', Str.setLenOnDrop c idx del s = .ok () s' ∧ Kept c (l.take (idx - del)) s s' := by
  obtain ⟨s', e1, e2⟩ := setLen_spec (k := idx - del) hb h hw (by omega)
  refine ⟨s', ?_, e2⟩
  unfold Str.setLenOnDrop
  rw [M.bind_ok (usub_eq h1), M.bind_ok (len_eq h), M.bind_ok (debugAssert_pos (by omega)), e1]

/-- Overwriting initialised bytes. -/
theorem copyFrom_spec {s : VSt UInt8} {a x r : List UInt8} (hb : Bytes c)
    (h : Rep c s.self s.w (a ++ x ++ r)) (hw : s.w.WF) (bs : List UInt8)
    (hl : bs.length = x.length) :
    ∃ s', Vec.onBuf c (Buf.copyFrom c (bs.map some) a.length bs.length) s = .ok () s' ∧
      Kept c (a ++ bs ++ r) s s' := by
  obtain ⟨s', e1, e2, _⟩ := onBuf_ok (a := ()) (l' := a ++ bs ++ r)
    (m := Buf.copyFrom c (bs.map some) a.length bs.length) hb.size_ne h hw
    (fun b hr hbc => by
      obtain ⟨rest, hrest⟩ := hr.holds
      have hsl : b.slots.length = a.length + bs.length + r.length + rest.length := by
        rw [hrest]; simp; omega
      refine ⟨_, Buf.copyFrom_eq hb.size_ne (by simp) (by omega), ?_, rfl⟩
      refine ⟨⟨by rw [hr.len]; simp; omega, ?_, ⟨rest, ?_⟩⟩, rfl, by simp⟩
      · simp only [List.length_append, List.length_take, List.length_drop, List.length_map]
        have := hr.cap
        omega
      · simp only
        rw [hrest, hl, List.map_append, List.map_append]
        have f1 : ((a.map some ++ x.map some) ++ r.map some ++ rest).take a.length = a.map some := by
          simp
        have f2 : ((a.map some ++ x.map some) ++ r.map some ++ rest).drop (a.length + x.length)
            = r.map some ++ rest := by
          simp [List.drop_append]
        rw [f1, f2]
        simp [List.take_of_length_le (Nat.le_of_eq (by simpa using hl) :
          (bs.map some).length ≤ x.length)])
  exact ⟨s', e1, e2.kept⟩

theorem strRetainLoop_spec {f : Nat → Char → Option Bool} (hb : Bytes c) {n : Nat} (todo : List Char) :
    ∀ {fuel k : Nat} {s : VSt UInt8} {kept : List Char} {junk : List UInt8},
    Rep c s.self s.w (utf8 kept ++ junk ++ utf8 todo) → s.w.WF →
    (utf8 kept ++ junk ++ utf8 todo).length = n → (utf8 todo).length ≤ fuel →
    Sat c (Str.retainLoop c f n fuel k ((utf8 kept).length + junk.length) junk.length s)
      (fun _ s' => (answers f k todo).length = todo.length ∧
        Kept c (utf8 (kept ++ accepted (answers f k todo))) s s')
      (fun s' => (answers f k todo).length < todo.length ∧
        Kept c (utf8 (kept ++ accepted (answers f k todo))) s s') := by
  induction todo with
  | nil =>
    intro fuel k s kept junk h hw hn hfuel
    have hn' : (utf8 kept).length + junk.length = n := by
      rw [← hn]; simp
    obtain ⟨s', e1, e2⟩ := setLenOnDrop_spec (idx := (utf8 kept).length + junk.length)
      (del := junk.length) hb h hw (by omega) (by simp)
    have e3 : Str.retainLoop c f n fuel k ((utf8 kept).length + junk.length) junk.length s
        = .ok () s' := by
      cases fuel with
      | zero => unfold Str.retainLoop; exact e1
      | succ fuel =>
        unfold Str.retainLoop
        rw [if_neg (by omega)]; exact e1
    rw [e3]
    refine ⟨rfl, ?_⟩
    have : (utf8 kept ++ junk ++ utf8 []).take ((utf8 kept).length + junk.length - junk.length)
        = utf8 (kept ++ accepted (answers f k [])) := by
      rw [Nat.add_sub_cancel]
      simp [answers, accepted]
    rw [this] at e2
    exact e2
  | cons ch todo ih =>
    intro fuel k s kept junk h hw hn hfuel
    have hpos := lenUtf8_pos ch
    have hch : (utf8 (ch :: todo)).length = lenUtf8 ch + (utf8 todo).length := by
      rw [lenUtf8_eq]; simp
    have hn' : (utf8 kept).length + junk.length + lenUtf8 ch + (utf8 todo).length = n := by
      rw [← hn, List.length_append, List.length_append, hch]; omega
    have hu : n ≤ c.usizeMax := by
      have := Fits.le_usize hb.size_ne h.fits
      have := h.le_cap
      omega
    obtain ⟨fuel, rfl⟩ : ∃ m, fuel = m + 1 := ⟨fuel - 1, by omega⟩
    have hnext : next ((utf8 kept ++ junk ++ utf8 (ch :: todo)).drop
        ((utf8 kept).length + junk.length)) = .ch ch := by
      have : (utf8 kept).length + junk.length = (utf8 kept ++ junk).length := by simp
      rw [this, List.drop_left, utf8_cons]
      exact next_utf8 ch _
    unfold Str.retainLoop
    rw [if_pos (by omega), M.bind_ok (asStr_eq hb h), hnext]
    simp only
    cases hf : f k ch with
    | none =>
      simp only [answers, hf]
      obtain ⟨s', e1, e2⟩ := setLenOnDrop_spec (idx := (utf8 kept).length + junk.length)
        (del := junk.length) hb h hw (by omega) (by rw [hn]; omega)
      rw [M.bind_ok e1]
      refine ⟨by simp, ?_⟩
      have : (utf8 kept ++ junk ++ utf8 (ch :: todo)).take
          ((utf8 kept).length + junk.length - junk.length) = utf8 kept := by
        rw [Nat.add_sub_cancel, List.append_assoc, List.take_left]
      rw [this] at e2
      simpa [accepted] using e2
    | some b =>
      have hans : answers f k (ch :: todo) = (ch, b) :: answers f (k + 1) todo := by
        simp [answers, hf]
      rw [hans]
      cases b with
      | false =>
        simp only
        rw [M.bind_ok (uadd_eq (by omega)), M.bind_ok (uadd_eq (by omega))]
        have key := ih (fuel := fuel) (k := k + 1) (s := s) (kept := kept)
          (junk := junk ++ String.utf8EncodeChar ch)
          (by simpa using h) hw (by rw [← hn]; simp) (by omega)
        have e1 : (utf8 kept).length + (junk ++ String.utf8EncodeChar ch).length
            = (utf8 kept).length + junk.length + lenUtf8 ch := by
          rw [lenUtf8_eq, List.length_append]; omega
        have e2 : (junk ++ String.utf8EncodeChar ch).length = junk.length + lenUtf8 ch := by
          rw [lenUtf8_eq, List.length_append]
        rw [e1, e2] at key
        refine key.mono ?_ ?_
        · rintro _ s' ⟨h1, h2⟩
          exact ⟨by simp [h1], by simpa [accepted] using h2⟩
        · rintro s' ⟨h1, h2⟩
          exact ⟨by simpa using h1, by simpa [accepted] using h2⟩
      | true =>
        simp only
        -- after the possible move the character sits right behind the kept ones
        have move : ∃ s1 junk', Str.moveDown c ch
              ((utf8 kept).length + junk.length) junk.length s = .ok () s1 ∧ junk'.length = junk.length ∧
            Kept c (utf8 (kept ++ [ch]) ++ junk' ++ utf8 todo) s s1 := by
          unfold Str.moveDown
          by_cases hj : 0 < junk.length
          · rw [if_pos hj, M.bind_ok (usub_eq (by omega)), Nat.add_sub_cancel]
            let x := (junk ++ String.utf8EncodeChar ch).take (lenUtf8 ch)
            let j := (junk ++ String.utf8EncodeChar ch).drop (lenUtf8 ch)
            have hx : (String.utf8EncodeChar ch).length = x.length := by
              simp only [x, List.length_take, List.length_append]
              rw [lenUtf8_eq]; omega
            have hjj : j.length = junk.length := by
              simp only [j, List.length_drop, List.length_append]
              rw [lenUtf8_eq]; omega
            have hsplit : utf8 kept ++ junk ++ utf8 (ch :: todo) = utf8 kept ++ x ++ (j ++ utf8 todo) := by
              have : x ++ j = junk ++ String.utf8EncodeChar ch := List.take_append_drop _ _
              rw [utf8_cons, List.append_assoc, List.append_assoc, ← List.append_assoc junk, ← this]
              simp
            rw [hsplit] at h
            obtain ⟨s1, g1, g2⟩ := copyFrom_spec hb h hw (String.utf8EncodeChar ch) hx
            refine ⟨s1, j, ?_, hjj, by simpa using g2⟩
            rw [lenUtf8_eq]; exact g1
          · rw [if_neg hj]
            have : junk = [] := List.length_eq_zero_iff.1 (by omega)
            subst this
            exact ⟨s, [], rfl, rfl, by simpa using Kept.refl h hw⟩
        obtain ⟨s1, junk', g1, g2, g3⟩ := move
        rw [M.bind_ok g1, M.bind_ok (uadd_eq (by omega))]
        have key := ih (fuel := fuel) (k := k + 1) (s := s1) (kept := kept ++ [ch]) (junk := junk')
          g3.rep g3.wf (by
            rw [utf8_append, utf8_singleton]
            simp only [List.length_append]
            rw [← lenUtf8_eq]; omega) (by omega)
        have e1 : (utf8 (kept ++ [ch])).length + junk'.length
            = (utf8 kept).length + junk.length + lenUtf8 ch := by
          rw [utf8_append, utf8_singleton, List.length_append, ← lenUtf8_eq]; omega
        rw [e1, g2] at key
        refine key.mono ?_ ?_
        · rintro _ s' ⟨h1, h2⟩
          exact ⟨by simp [h1], by simpa [accepted] using g3.trans hw h2⟩
        · rintro s' ⟨h1, h2⟩
          exact ⟨by simpa using h1, by simpa [accepted] using g3.trans hw h2⟩

theorem retain_spec_str {s : VSt UInt8} {t : List Char} (hb : Bytes c)
    (h : Rep c s.self s.w (utf8 t)) (hw : s.w.WF) (f : Nat → Char → Option Bool) :
    Sat c (Str.retain c f s)
      (fun _ s' => (answers f 0 t).length = t.length ∧
        Kept c (utf8 (accepted (answers f 0 t))) s s')
      (fun s' => (answers f 0 t).length < t.length ∧
        Kept c (utf8 (accepted (answers f 0 t))) s s') := by
  unfold Str.retain
  rw [M.bind_ok (len_eq h)]
  have := strRetainLoop_spec (c := c) (f := f) hb (n := (utf8 t).length) t (fuel := (utf8 t).length)
    (k := 0) (s := s) (kept := []) (junk := []) (by simpa using h) hw (by simp) (Nat.le_refl _)
  simpa using this

end Lokky
