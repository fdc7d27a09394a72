import Verif.Model.TextMore
import Verif.Props.Text
import Verif.Props.VecMove

/-!
# Writing into a `String`, printing it, `Box<str>` as bytes (C114–C116)
-/

namespace Lokky
open Utf8 Spec
variable {c : Cfg UInt8} {s : VSt UInt8} {t : List Char}

/-! ## C114 -/

/-- What accesses to the buffer leave alone. -/
theorem onBuf_stays {α β : Type} {c : Cfg α} {m : M (Buf α) β} {s s' : VSt α} {a : β}
    (e : Vec.onBuf c m s = .ok a s') :
    s'.self = { s.self with len := s'.self.len } ∧ (∀ p, some p ≠ s.self.ptr → s'.w.heap p = s.w.heap p) ∧
      s'.w.tick = s.w.tick := by
  rw [onBuf_eq] at e
  split at e <;> cases e
  refine ⟨rfl, fun p hp => ?_, by simp [putBuf]⟩
  simp only [putBuf, World.setSlots]
  split
  · rfl
  · split
    · rfl
    · rename_i q hq _ _ _
      exact if_neg (fun e => hp (by rw [e, hq]))

theorem start_eq {n : Nat} (r : StrRange) : r.start = (offsets n r).1 := by cases r <;> rfl

/-- C114. Changing the part `m` of the text `p ++ m ++ q` through a range to a text `m'` of as many bytes makes the
string `p ++ m' ++ q`: nothing else of it changes, no memory is requested or released. -/
theorem C114_write (hb : Bytes c) (hw : s.w.WF) {p m q m' : List Char}
    (h : Rep c s.self s.w (utf8 (p ++ m ++ q))) (r : StrRange)
    (h1 : (offsets (utf8 (p ++ m ++ q)).length r).1 = (utf8 p).length)
    (h2 : (offsets (utf8 (p ++ m ++ q)).length r).2 = (utf8 (p ++ m)).length)
    (f : List UInt8 → List UInt8) (hf : f (utf8 m) = utf8 m') (hl : (utf8 m').length = (utf8 m).length) :
    ∃ s', Str.indexMut c r f s = .ok () s' ∧ Rep c s'.self s'.w (utf8 (p ++ m' ++ q)) ∧
      s'.self = s.self ∧ (∀ a, some a ≠ s.self.ptr → s'.w.heap a = s.w.heap a) ∧ s'.w.tick = s.w.tick ∧
      Str.asStr c s' = .ok (utf8 (p ++ m' ++ q)) s' := by
  have e1 := (C83_index hb h r).1 m ⟨p, q, rfl, h1.symm, h2.symm⟩
  have h' : Rep c s.self s.w (utf8 p ++ utf8 m ++ utf8 q) := by simpa using h
  obtain ⟨s', e2, k⟩ := copyFrom_spec hb h' hw (utf8 m') hl
  have hr : Rep c s'.self s'.w (utf8 (p ++ m' ++ q)) := by simpa using k.rep
  obtain ⟨g1, g2, g3⟩ := onBuf_stays e2
  refine ⟨s', ?_, hr, ?_, g2, g3, asStr_eq hb hr⟩
  · unfold Str.indexMut
    rw [M.bind_ok e1, hf, start_eq r, h1, e2]
  · have h3 : s'.self.len = s.self.len := by
      rw [hr.len, h.len]
      simp [hl]
    rw [g1]
    cases s with
    | mk v w =>
      cases v
      simp only at h3
      simp [h3]

/-- C114. Any other range panics and changes nothing. -/
theorem C114_rejected (hb : Bytes c) (h : Rep c s.self s.w (utf8 t)) (r : StrRange) (f : List UInt8 → List UInt8)
    (hno : ∀ m, ¬ Between t (offsets (utf8 t).length r).1 (offsets (utf8 t).length r).2 m) :
    Str.indexMut c r f s = .panic s := by
  unfold Str.indexMut
  exact M.bind_panic ((C83_index hb h r).2 hno)

example : Rep cfgBytes sampleStr.self sampleStr.w (utf8 (['h'] ++ ['é'] ++ ['€'])) ∧
    (offsets (utf8 (['h'] ++ ['é'] ++ ['€'])).length (.range 1 3)).1 = (utf8 ['h']).length ∧
    (offsets (utf8 (['h'] ++ ['é'] ++ ['€'])).length (.range 1 3)).2 = (utf8 (['h'] ++ ['é'])).length ∧
    (utf8 ['É']).length = (utf8 ['é']).length ∧
    (∀ m, ¬ Between ['h', 'é', '€'] 2 3 m) :=
  ⟨sampleStr_rep, by decide +kernel, by decide +kernel, by decide +kernel, by
    rintro m ⟨p, q, e1, e2, -⟩
    have : ¬ Boundary ['h', 'é', '€'] 2 := by
      rw [← isCharBoundary_iff]; decide +kernel
    exact this ⟨p, m ++ q, by rw [e1]; simp, e2⟩⟩

/-! ## C115 -/

/-- C115 for `Display`. -/
theorem C115_display_partial (hb : Bytes c) (h : Rep c s.self s.w (utf8 t)) :
    Str.display c s = .ok (utf8 t) s := asStr_eq hb h

/-- C115 fails for `Debug`: the output has quotation marks around it only if the text has, so that two strings
printed one after the other cannot be told from one. -/
theorem C115_debug_refuted (hb : Bytes c) (h : Rep c s.self s.w (utf8 t)) :
    Str.debug c s = .ok (utf8 t) s ∧ ((utf8 t).head? = some 0x22 → t.head? = some '"') := by
  refine ⟨asStr_eq hb h, fun e => ?_⟩
  cases t with
  | nil => cases e
  | cons ch t =>
    have h1 := next_utf8 ch (utf8 t)
    rw [utf8_cons] at e
    generalize String.utf8EncodeChar ch ++ utf8 t = l at e h1
    cases l with
    | nil => cases e
    | cons a l =>
      simp only [List.head?_cons, Option.some.injEq] at e
      subst e
      have h2 : next (0x22 :: l) = .ch '"' := rfl
      rw [h1] at h2
      cases h2
      rfl

/-- A text without a quotation mark at its beginning: neither has the output. -/
example : Str.debug cfgBytes sampleStr = .ok [0x68, 0xc3, 0xa9, 0xe2, 0x82, 0xac] sampleStr ∧
    ['h', 'é', '€'].head? ≠ some '"' :=
  ⟨(C115_debug_refuted (t := ['h', 'é', '€']) ⟨rfl, fun _ => rfl, fun _ _ => rfl⟩ sampleStr_rep).1, by decide⟩

/-! ## C116 -/

/-- C116. The boxed bytes are those of the text, at the same place; no memory is requested or released. Dropping
them releases the memory of the box, and nothing else. -/
theorem C116_bytes_partial (hb : Bytes c) {b : Vec.BoxSliceH} {w : World UInt8} (h : BoxRep c b w (utf8 t))
    (ht : t ≠ []) (hf : c.Fits (utf8 t).length) :
    ∃ b', Str.boxToBytes b w = .ok b' w ∧ BoxRep c b' w (utf8 t) ∧ b'.ptr = b.ptr ∧ b'.marker = b.marker ∧
      ∃ w', Vec.boxSliceDrop c b' w = .ok () w' ∧
        ∀ p, w'.heap p = if some p = b.ptr then none else w.heap p := by
  refine ⟨b, rfl, h, rfl, rfl, ?_⟩
  have hd := C25_boxed_slice_drop hb.size_ne hb.noPanic h (fun e => ht (utf8_eq_nil e)) hf
  cases e : Vec.boxSliceDrop c b w with
  | ok a w' =>
    rw [e] at hd
    cases hd
    refine ⟨_, rfl, fun p => ?_⟩
    simp only [World.addDrops, World.free]
  | panic w' => rw [e] at hd; exact hd.elim
  | abort =>
    rw [e] at hd
    obtain ⟨a, ha⟩ := hd
    rw [hb.noPanic a] at ha
    cases ha
  | ub u => rw [e] at hd; exact hd.elim

/-- C116. The vector made from the box has the bytes of the text, in the same memory. -/
theorem C116_vec_partial {b : Vec.BoxSliceH} {w : World UInt8} (h : BoxRep c b w (utf8 t))
    (ht : t ≠ []) (hf : c.Fits (utf8 t).length) :
    ∃ v, Str.vecOfBoxStr b w = .ok v w ∧ Rep c v w (utf8 t) ∧ v.ptr = b.ptr ∧ v.marker = b.marker :=
  ⟨Vec.ofBoxedSlice b, rfl, h.rep (fun e => ht (utf8_eq_nil e)) hf, rfl, rfl⟩

/-- C116 is false for the empty text in a box made from an empty vector: dropping the boxed bytes gives a dangling
pointer to the allocator. -/
theorem C116_refuted (w : World UInt8) :
    ∃ b, Vec.intoBoxedSlice c (emptyVec w) w = .ok b w ∧ Str.boxToBytes b w = .ok b w ∧
      Vec.boxSliceDrop c b w = .ub .badFree := by
  obtain ⟨b, h1, h2⟩ := C25_empty_refuted (c := c) w
  exact ⟨b, h1, rfl, h2⟩

example : BoxRep cfgBytes ⟨some 0, 3, 0, none⟩
    { worldBytes with heap := fun p => if p = 0 then some ⟨0, 3, [some 0x68, some 0xc3, some 0xa9]⟩ else none }
    (utf8 ['h', 'é']) ∧ cfgBytes.Fits (utf8 ['h', 'é']).length :=
  ⟨⟨by decide +kernel, 0, rfl, rfl⟩, by decide +kernel⟩

end Lokky
