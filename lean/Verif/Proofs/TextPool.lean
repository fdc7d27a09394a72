import Verif.Proofs.Text
import Verif.Proofs.Utf16
import Verif.Proofs.VecPool

/-!
# Every call on a pool of strings follows the text specification
-/

namespace Lokky
open Utf8 Spec
variable {c : Cfg UInt8}

/-! ## Calls on one string -/

/-- A call on a string with text `t` is allowed by the specification. -/
def TextOk (c : Cfg UInt8) (o : TextOp) (t : List Char) (s : VSt UInt8) (out : Option TextOut)
    (s' : VSt UInt8) : Prop :=
  ∃ t', TextEdit o ⟨out, s'.w.refusals != s.w.refusals⟩ t t' ∧ ∃ d, Trans c (utf8 t') d s s'

theorem TextOk.same {o : TextOp} {t t' : List Char} {s s' : VSt UInt8} {out : Option TextOut}
    (hk : Kept c (utf8 t') s s') (he : TextEdit o ⟨out, false⟩ t t') : TextOk c o t s out s' := by
  refine ⟨t', ?_, hk.1⟩
  have : (s'.w.refusals != s.w.refusals) = false := by simp [hk.2]
  rw [this]; exact he

theorem TextOk.refused {o : TextOp} {t t' : List Char} {s s' : VSt UInt8} {out : Option TextOut}
    (hk : Refused c (utf8 t') s s') (he : TextEdit o ⟨out, true⟩ t t') : TextOk c o t s out s' := by
  refine ⟨t', ?_, hk.1⟩
  have : (s'.w.refusals != s.w.refusals) = true := by simp [hk.2]
  rw [this]; exact he

theorem tquiet_sat {σ : Type} {m : M σ Unit} {s : σ} {Q : Option TextOut → σ → Prop}
    (h : Sat c (m s) (fun _ s' => Q (some .unit) s') (fun s' => Q none s')) :
    Sat c (tquiet m s) (fun o s' => Q (some o) s') (fun s' => Q none s') :=
  Sat.bind h (fun _ _ h => h)

theorem tmap_sat {σ β : Type} {m : M σ β} {f : β → TextOut} {s : σ}
    {Q : Option TextOut → σ → Prop}
    (h : Sat c (m s) (fun a s' => Q (some (f a)) s') (fun s' => Q none s')) :
    Sat c ((do pure (f (← m)) : M σ TextOut) s) (fun o s' => Q (some o) s') (fun s' => Q none s') :=
  Sat.bind h (fun _ _ h => h)

theorem utf8_flatten (ts : List (List Char)) : (ts.map utf8).flatten = utf8 ts.flatten := by
  induction ts with
  | nil => rfl
  | cons t ts ih => simp [ih]

theorem map_utf8_split {ts : List (List Char)} {p q : List (List UInt8)}
    (h : ts.map utf8 = p ++ q) : ∃ p' q', ts = p' ++ q' ∧ p = p'.map utf8 := by
  obtain ⟨p', q', h1, h2, _⟩ := List.map_eq_append_iff.mp h
  exact ⟨p', q', h1, h2.symm⟩

theorem runTextOp_spec {s : VSt UInt8} {t : List Char} (hb : Bytes c)
    (h : Rep c s.self s.w (utf8 t)) (hw : s.w.WF) (o : TextOp)
    (ho : o.Legal c s.self.len s.self.cap) :
    Sat c (runTextOp c o s) (fun out s' => TextOk c o t s (some out) s')
      (fun s' => TextOk c o t s none s') := by
  rw [h.len] at ho
  have hrefl := Kept.refl h hw
  have href := refuse_refused h hw
  cases o with
  | push ch =>
    refine tquiet_sat ((push_char_spec hb h hw ho.1 ho.2).mono ?_ ?_)
    · rintro _ s' h1
      refine .same (t' := t ++ [ch]) ?_ (.push ch t)
      rw [utf8_append, utf8_singleton]; exact h1
    · rintro s' h1
      exact .refused h1 (.pushRefused ch t)
  | pushStr x =>
    refine tquiet_sat ((pushStr_spec hb h hw _ ho).mono ?_ ?_)
    · rintro _ s' h1
      exact .same (t' := t ++ x) (by rw [utf8_append]; exact h1) (.pushStr x t)
    · rintro s' h1
      exact .refused h1 (.pushStrRefused x t)
  | pop =>
    refine tmap_sat ?_
    rcases List.eq_nil_or_concat t with rfl | ⟨t', ch, rfl⟩
    · rw [pop_nil hb h]
      exact .same hrefl .popNone
    · rw [List.concat_eq_append] at *
      obtain ⟨s', h1, h2⟩ := pop_snoc hb h hw
      rw [h1]
      exact .same h2 (.pop ch t')
  | insert i ch =>
    refine tquiet_sat ((insert_char_spec hb ho.1 h hw i ch ho.2).mono ?_ ?_)
    · rintro _ s' ⟨p, q, ⟨rfl, h1⟩, h2⟩
      exact .same h2 (.insert i ch p q h1)
    · rintro s' (⟨h1, rfl⟩ | ⟨h1, h2⟩)
      · exact .same hrefl (.insertBad i ch t h1)
      · exact .refused h2 (.insertRefused i ch t h1)
  | insertStr i x =>
    refine tquiet_sat ((insertStr_spec hb h hw i x ho).mono ?_ ?_)
    · rintro _ s' ⟨p, q, ⟨rfl, h1⟩, h2⟩
      exact .same h2 (.insertStr i x p q h1)
    · rintro s' (⟨h1, rfl⟩ | ⟨h1, h2⟩)
      · exact .same hrefl (.insertStrBad i x t h1)
      · exact .refused h2 (.insertStrRefused i x t h1)
  | remove i =>
    refine tmap_sat ?_
    by_cases hi : ¬ Boundary t i ∨ (utf8 t).length ≤ i
    · rw [remove_str_panic hb h hi]
      exact .same hrefl (.removeBad i t hi)
    · obtain ⟨p, q, rfl, rfl⟩ : Boundary t i := Classical.byContradiction fun e => hi (.inl e)
      cases q with
      | nil => exact absurd (.inr (by simp)) hi
      | cons ch q =>
        obtain ⟨s', h1, h2⟩ := remove_str_spec hb h hw
        rw [h1]
        exact .same h2 (.remove _ ch p q rfl)
  | truncate k =>
    refine tquiet_sat ((truncate_str_spec hb h hw k).mono ?_ ?_)
    · rintro _ s' (⟨h1, rfl⟩ | ⟨p, q, ⟨rfl, h1⟩, h2⟩)
      · exact .same hrefl (.truncateLong k t h1)
      · exact .same h2 (.truncate k p q h1)
    · rintro s' ⟨h1, h2, rfl⟩
      exact .same hrefl (.truncateBad k t h1 h2)
  | clear =>
    refine tquiet_sat ((clear_str_spec hb h hw).mono ?_ (fun _ h => h.elim))
    rintro _ s' h1
    exact .same (t' := []) h1 (.clear t)
  | retain f =>
    refine tquiet_sat ((retain_spec_str hb h hw f).mono ?_ ?_)
    · rintro _ s' ⟨h1, h2⟩
      exact .same h2 (.retain f t h1)
    · rintro s' ⟨h1, h2⟩
      exact .same h2 (.retainPanic f t h1)
  | extendChars it =>
    refine tquiet_sat ((extendChars_spec hb h hw ⟨it.items, it.hint, it.boom⟩ ho.1 ho.2.1
      ho.2.2).mono ?_ ?_)
    · rintro _ s' ⟨h1, h2⟩
      exact .same (t' := t ++ it.items) (by rw [utf8_append]; exact h2) (.extendChars it t h1)
    · rintro s' (⟨h1, h2⟩ | ⟨p, q, h1, h2⟩)
      · exact .same (t' := t ++ it.items) (by rw [utf8_append]; exact h2)
          (.extendCharsPanic it t h1)
      · exact .refused (t' := t ++ p) (by rw [utf8_append]; exact h2)
          (.extendCharsRefused it p q t h1)
  | extendStrs it =>
    refine tquiet_sat ((extendStrs_spec hb h hw ⟨it.items.map utf8, it.hint, it.boom⟩
      (by simp only [utf8_flatten]; exact ho)).mono ?_ ?_)
    · rintro _ s' ⟨h1, h2⟩
      refine .same (t' := t ++ it.items.flatten) ?_ (.extendStrs it t h1)
      rw [utf8_append, ← utf8_flatten]; exact h2
    · rintro s' (⟨h1, h2⟩ | ⟨p, q, h1, h2⟩)
      · refine .same (t' := t ++ it.items.flatten) ?_ (.extendStrsPanic it t h1)
        rw [utf8_append, ← utf8_flatten]; exact h2
      · obtain ⟨p', q', e1, rfl⟩ := map_utf8_split h1
        refine .refused (t' := t ++ p'.flatten) ?_ (.extendStrsRefused it p' q' t e1)
        rw [utf8_append, ← utf8_flatten]; exact h2
  | reserve k =>
    refine tquiet_sat ((reserve_spec hb.size_ne h hw ho).mono ?_ ?_)
    · rintro _ s' ⟨h1, _, _⟩
      exact .same h1.kept (.reserve k t)
    · rintro s' ⟨rfl, _, _⟩
      exact .refused href (.reserveRefused k t)
  | reserveExact k =>
    refine tquiet_sat ((reserveExact_spec hb.size_ne h hw ho).mono ?_ ?_)
    · rintro _ s' ⟨h1, _, _⟩
      exact .same h1.kept (.reserveExact k t)
    · rintro s' ⟨rfl, _, _⟩
      exact .refused href (.reserveExactRefused k t)
  | read =>
    refine tmap_sat ?_
    rw [asStr_eq hb h]
    exact .same hrefl (.read t)
  | len =>
    refine tmap_sat ?_
    rw [len_eq h]
    exact .same hrefl (.len t)

/-! ## Constructors -/

/-- A new string with bytes `l` was made. -/
def TMade (c : Cfg UInt8) (l : List UInt8) (w : World UInt8) (v : VecH) (w' : World UInt8) : Prop :=
  (∃ d, Made c l d w v w') ∧ w'.refusals = w.refusals

/-- The vector `v` was made empty in world `w`. -/
def Fresh (c : Cfg UInt8) (w : World UInt8) (v : VecH) (w' : World UInt8) : Prop :=
  (∃ d, Trans c [] d ⟨emptyVec w, w⟩ ⟨v, w'⟩) ∧ w'.refusals = w.refusals

theorem Fresh.rep {w w' : World UInt8} {v : VecH} (h : Fresh c w v w') : Rep c v w' [] :=
  h.1.elim fun _ h => h.rep

theorem Fresh.wf {w w' : World UInt8} {v : VecH} (h : Fresh c w v w') : w'.WF :=
  h.1.elim fun _ h => h.wf

theorem Fresh.new {w : World UInt8} (hw : w.WF) : Fresh c w (emptyVec w) w :=
  ⟨⟨_, Trans.refl (emptyVec_rep w) hw⟩, rfl⟩

theorem Fresh.kept {w w' : World UInt8} {v : VecH} {l : List UInt8} {s' : VSt UInt8}
    (h : Fresh c w v w') (hw : w.WF) (hk : Kept c l ⟨v, w'⟩ s') : TMade c l w s'.self s'.w := by
  obtain ⟨⟨d, h1⟩, h2⟩ := h
  obtain ⟨⟨d', h3⟩, h4⟩ := hk
  exact ⟨⟨_, (Trans.trans (s := ⟨emptyVec w, w⟩) hw h1 h3).made⟩, h4.trans h2⟩

theorem Fresh.refused {w w' : World UInt8} {v : VecH} {l : List UInt8} {s' : VSt UInt8}
    (h : Fresh c w v w') (hw : w.WF) (hk : Refused c l ⟨v, w'⟩ s') :
    (∃ l d, Made c l d w s'.self s'.w) ∧ s'.w.refusals = w.refusals + 1 := by
  obtain ⟨⟨d, h1⟩, h2⟩ := h
  obtain ⟨⟨d', h3⟩, h4⟩ := hk
  exact ⟨⟨_, _, (Trans.trans (s := ⟨emptyVec w, w⟩) hw h1 h3).made⟩, by rw [h4]; exact congrArg (· + 1) h2⟩

theorem TMade.wf {w w' : World UInt8} {v : VecH} {l : List UInt8} (h : TMade c l w v w') :
    w'.WF := h.1.elim fun _ h => h.wf

theorem TMade.rep {w w' : World UInt8} {v : VecH} {l : List UInt8} (h : TMade c l w v w') :
    Rep c v w' l := h.1.elim fun _ h => h.rep

/-- Dropping a string made by the call. -/
theorem dropMade {w : World UInt8} {l d : List UInt8} {s' : VSt UInt8} (hb : Bytes c) (hw : w.WF)
    (h : Made c l d w s'.self s'.w) :
    ∃ s'', Vec.drop c s' = .ok () s'' ∧ (∃ d, Clean d w s''.w) ∧
      s''.w.refusals = s'.w.refusals := by
  have key := h.drop hb.size_ne hw
  have no : ¬ c.MayAbort := by rintro ⟨a, ha⟩; rw [hb.noPanic] at ha; cases ha
  cases hr : Vec.drop c s' with
  | ok u s'' => rw [hr] at key; exact ⟨s'', rfl, ⟨_, key.1⟩, key.2⟩
  | panic s'' => rw [hr] at key; exact (no key).elim
  | abort => rw [hr] at key; exact (no key).elim
  | ub u => rw [hr] at key; exact key.elim

theorem dropLocal_eq {w w' : World UInt8} {l : List UInt8} {v : VecH} (hb : Bytes c) (hw : w.WF)
    (h : TMade c l w v w') :
    ∃ w'', Str.dropLocal c v w' = .ok () w'' ∧ (∃ d, Clean d w w'') ∧ w''.refusals = w.refusals := by
  obtain ⟨⟨d, h1⟩, h2⟩ := h
  obtain ⟨s'', e, h3, h4⟩ := dropMade (s' := ⟨v, w'⟩) hb hw h1
  refine ⟨s''.w, ?_, h3, h4.trans h2⟩
  unfold Str.dropLocal
  rw [M.bind_ok (withLocal_ok e)]
  rfl

theorem local_sat {β : Type} {w w1 : World UInt8} {m : M (VSt UInt8) β} (hb : Bytes c) (hw : w.WF)
    {Q : β → VSt UInt8 → Prop} {E : Nat → Prop} {v : VecH}
    (hm : Sat c (m ⟨v, w1⟩) Q
      (fun s' => E s'.w.refusals ∧ ∃ l d, Made c l d w s'.self s'.w)) :
    Sat c (withLocal v (Vec.drop c) m w1) (fun r w' => Q r.1 ⟨r.2, w'⟩)
      (fun w' => E w'.refusals ∧ ∃ d, Clean d w w') := by
  cases hr : m ⟨v, w1⟩ with
  | ok a s => rw [hr] at hm; rw [withLocal_ok hr]; exact hm
  | panic s =>
    rw [hr] at hm
    obtain ⟨h1, l, d, h2⟩ := hm
    obtain ⟨s'', e, h3, h4⟩ := dropMade hb hw h2
    rw [withLocal_panic hr e]
    exact ⟨by rw [h4]; exact h1, h3⟩
  | abort => rw [hr] at hm; simp [withLocal, M.onUnwind, hr, Sat]; exact hm
  | ub u => rw [hr] at hm; exact hm.elim

theorem fromChars_spec {w : World UInt8} (hb : Bytes c) (hw : w.WF) (it : Iter Char)
    (hp : ∀ ch ∈ it.items, PushOk c ch) (hr : RoomFits c 0 0 it.hint)
    (hf : c.Fits (utf8 it.items).length) :
    Sat c (Str.fromChars c it w)
      (fun v w' => it.boom = false ∧ TMade c (utf8 it.items) w v w')
      (fun w' => (it.boom = true ∧ w'.refusals = w.refusals ∨ w'.refusals = w.refusals + 1) ∧
        ∃ d, Clean d w w') := by
  unfold Str.fromChars
  rw [M.bind_ok (new_eq w)]
  refine Sat.bind (local_sat (w := w) hb hw (E := fun n => it.boom = true ∧ n = w.refusals ∨
    n = w.refusals + 1) (Q := fun _ s' => it.boom = false ∧ TMade c (utf8 it.items) w s'.self s'.w)
    ((extendChars_spec (s := ⟨emptyVec w, w⟩) hb (emptyVec_rep w) hw it hp hr
      (by simpa using hf)).mono ?_ ?_)) ?_
  · rintro _ s' ⟨h1, h2⟩
    exact ⟨h1, (Fresh.new hw).kept hw (by simpa using h2)⟩
  · rintro s' (⟨h1, h2⟩ | ⟨p, q, h1, h2⟩)
    · obtain ⟨⟨d, h3⟩, h4⟩ := (Fresh.new hw).kept hw h2
      exact ⟨.inl ⟨h1, h4⟩, _, d, h3⟩
    · obtain ⟨h3, h4⟩ := (Fresh.new hw).refused hw h2
      exact ⟨.inr h4, h3⟩
  · rintro ⟨_, v⟩ w' h; exact h

theorem fromStrs_spec {w : World UInt8} (hb : Bytes c) (hw : w.WF) (it : Iter (List UInt8))
    (hf : c.Fits it.items.flatten.length) :
    Sat c (Str.fromStrs c it w)
      (fun v w' => it.boom = false ∧ TMade c it.items.flatten w v w')
      (fun w' => (it.boom = true ∧ w'.refusals = w.refusals ∨ w'.refusals = w.refusals + 1) ∧
        ∃ d, Clean d w w') := by
  unfold Str.fromStrs
  rw [M.bind_ok (new_eq w)]
  refine Sat.bind (local_sat (w := w) hb hw (E := fun n => it.boom = true ∧ n = w.refusals ∨
    n = w.refusals + 1) (Q := fun _ s' => it.boom = false ∧ TMade c it.items.flatten w s'.self s'.w)
    ((extendStrs_spec (s := ⟨emptyVec w, w⟩) hb (emptyVec_rep w) hw it
      (by simpa using hf)).mono ?_ ?_)) ?_
  · rintro _ s' ⟨h1, h2⟩
    exact ⟨h1, (Fresh.new hw).kept hw (by simpa using h2)⟩
  · rintro s' (⟨h1, h2⟩ | ⟨p, q, h1, h2⟩)
    · obtain ⟨⟨d, h3⟩, h4⟩ := (Fresh.new hw).kept hw h2
      exact ⟨.inl ⟨h1, h4⟩, _, d, h3⟩
    · obtain ⟨h3, h4⟩ := (Fresh.new hw).refused hw h2
      exact ⟨.inr h4, h3⟩
  · rintro ⟨_, v⟩ w' h; exact h

theorem fromUtf16_spec {w : World UInt8} (hb : Bytes c) (hw : w.WF) (us : List UInt16)
    (hp : ∀ ch ∈ (decode16 us).1, PushOk c ch) (hf : c.Fits (3 * us.length)) :
    Sat c (Str.fromUtf16 c us w)
      (fun r w' => match r with
        | some v => ∃ t, us = utf16 t ∧ TMade c (utf8 t) w v w'
        | none => (∀ t, us ≠ utf16 t) ∧ (∃ d, Clean d w w') ∧ w'.refusals = w.refusals)
      (fun w' => (∃ d, Clean d w w') ∧ w'.refusals = w.refusals + 1) := by
  unfold Str.fromUtf16
  refine Sat.bind' (withCapacity_spec hb.size_ne hw (Fits.mono hf (by omega))) ?_ ?_
  · rintro w' ⟨rfl, _, _⟩
    exact ⟨⟨_, .refuse hw⟩, rfl⟩
  · rintro v w1 ⟨h1, _, h2, _⟩
    have hfr : Fresh c w v w1 := ⟨⟨_, h1⟩, h2⟩
    refine Sat.bind' (local_sat (w := w) hb hw (E := fun n => n = w.refusals + 1)
      (Q := fun _ s' => TMade c (utf8 (decode16 us).1) w s'.self s'.w)
      ((pushAll_spec (s := ⟨v, w1⟩) hb hfr.rep hfr.wf _ hp
        (by simpa using Fits.mono hf (decode16_len us))).mono ?_ ?_)) ?_ ?_
    · rintro _ s' h
      exact hfr.kept hw (by simpa using h)
    · rintro s' ⟨p, q, _, h⟩
      obtain ⟨h3, h4⟩ := hfr.refused hw h
      exact ⟨h4, h3⟩
    · rintro w' ⟨h3, h4⟩; exact ⟨h4, h3⟩
    · rintro ⟨_, v'⟩ w' h
      simp only at h ⊢
      by_cases hok : (decode16 us).2 = true
      · rw [if_pos hok]
        exact ⟨_, (decode16_iff us).1 hok, h⟩
      · rw [if_neg hok]
        obtain ⟨w'', e, h3, h4⟩ := dropLocal_eq hb hw h
        rw [M.bind_ok e]
        exact ⟨fun t e => hok (by rw [e, decode16_utf16]), h3, h4⟩

theorem makeUtf8_spec {w : World UInt8} (hb : Bytes c) (hw : w.WF) (l : List UInt8)
    (hf : c.Fits l.length) :
    Sat c (makeUtf8 c l w)
      (fun r w' => match r with
        | some v => ∃ t, l = utf8 t ∧ TMade c (utf8 t) w v w'
        | none => (∀ t, l ≠ utf8 t) ∧ (∃ d, Clean d w w') ∧ w'.refusals = w.refusals)
      (fun w' => (∃ d, Clean d w w') ∧ w'.refusals = w.refusals + 1) := by
  unfold makeUtf8
  refine Sat.bind' (cloneFrom_spec hb.size_ne hw l hf) ?_ ?_
  · rintro w' (⟨h1, h2⟩ | ⟨pre, a, post, ys, _, _, ⟨k, h3⟩, _⟩)
    · exact ⟨⟨_, h1⟩, h2⟩
    · rw [hb.clone] at h3; cases h3
  · rintro v w' ⟨ys, h1, h2, h3⟩
    rw [h1.bytes hb] at h2
    have hm : TMade c l w v w' := ⟨⟨_, h2⟩, h3⟩
    unfold Str.fromUtf8
    have e : (do
        let l ← Str.asStr c
        pure (validate l) : M (VSt UInt8) Bool) ⟨v, w'⟩ = .ok (validate l) ⟨v, w'⟩ := by
      rw [M.bind_ok (asStr_eq (s := ⟨v, w'⟩) hb hm.rep)]; rfl
    rw [M.bind_ok (withLocal_ok e)]
    simp only
    by_cases hok : validate l = true
    · rw [if_pos hok]
      obtain ⟨t, ht⟩ := (validate_iff l).1 hok
      exact ⟨t, ht, ht ▸ hm⟩
    · rw [if_neg hok]
      obtain ⟨w'', e, h3, h4⟩ := dropLocal_eq hb hw hm
      rw [M.bind_ok e]
      exact ⟨fun t e => hok ((validate_iff l).2 ⟨t, e⟩), h3, h4⟩

/-! ## The pool -/

/-- The pool holds the texts `T`. -/
def TInv (c : Cfg UInt8) (P : Pool UInt8) (T : Texts) : Prop :=
  PInv c P (T.map (Option.map utf8))

theorem TInv.live {P : Pool UInt8} {T : Texts} (h : TInv c P T) {x : Nat} {v : VecH}
    (hx : P.vecs[x]? = some (some v)) : ∃ t, T[x]? = some (some t) ∧ Rep c v P.w (utf8 t) := by
  obtain ⟨l, h1, h2⟩ := h.rep x v hx
  rw [List.getElem?_map] at h1
  cases e : T[x]? with
  | none => rw [e] at h1; cases h1
  | some o =>
    rw [e] at h1
    cases o with
    | none => cases h1
    | some t => cases h1; exact ⟨t, rfl, h2⟩

theorem TInv.named {P : Pool UInt8} {T : Texts} (h : TInv c P T) {x : Nat} {t : List Char}
    (hx : T[x]? = some (some t)) :
    ∃ v, P.vecs[x]? = some (some v) ∧ Rep c v P.w (utf8 t) := by
  obtain ⟨v, hv⟩ := PInv.live h x (utf8 t) (by rw [List.getElem?_map, hx]; rfl)
  obtain ⟨t', e, h2⟩ := h.live hv
  rw [hx] at e; cases e
  exact ⟨v, hv, h2⟩

theorem TInv.update {P : Pool UInt8} {T : Texts} (h : TInv c P T) {x : Nat} {v : VecH}
    (hx : P.vecs[x]? = some (some v)) {t' : List Char} {d : List UInt8} {s' : VSt UInt8}
    (ht : Trans c (utf8 t') d ⟨v, P.w⟩ s') :
    TInv c ⟨P.vecs.set x (some s'.self), s'.w⟩ (T.set x (some t')) := by
  have := PInv.update h hx ht
  unfold TInv
  rw [List.map_set]
  exact this

theorem TInv.add {P : Pool UInt8} {T : Texts} (h : TInv c P T) {v : VecH} {t : List Char}
    {w' : World UInt8} (hm : TMade c (utf8 t) P.w v w') :
    TInv c ⟨P.vecs ++ [some v], w'⟩ (T ++ [some t]) := by
  obtain ⟨⟨d, h1⟩, _⟩ := hm
  have := PInv.add h h1
  unfold TInv
  rw [List.map_append]
  exact this

theorem TInv.clean {P : Pool UInt8} {T : Texts} (h : TInv c P T) {w' : World UInt8}
    (hm : ∃ d, Clean d P.w w') : TInv c ⟨P.vecs, w'⟩ T := by
  obtain ⟨d, hm⟩ := hm
  exact PInv.clean h hm

/-- Moving the string `y` to the free name `x`. -/
theorem PInv.move {α : Type} {c : Cfg α} {P : Pool α} {L : Spec.Lists α} (h : PInv c P L) {x y : Nat}
    {u : VecH} {l : List α} (hxy : x ≠ y) (hx : P.vecs[x]? = some none)
    (hy : P.vecs[y]? = some (some u)) (hl : L[y]? = some (some l)) :
    PInv c ⟨(P.vecs.set x (some u)).set y none, P.w⟩ ((L.set x (some l)).set y none) := by
  have hxl : x < P.vecs.length := (List.getElem?_eq_some_iff.mp hx).1
  have back : ∀ {z : Nat} {v : VecH}, ((P.vecs.set x (some u)).set y none)[z]? = some (some v) →
      (z = x ∧ v = u) ∨ (z ≠ x ∧ z ≠ y ∧ P.vecs[z]? = some (some v)) := by
    intro z v hz
    rcases set_get hz with ⟨rfl, e, _⟩ | ⟨hyz, hz⟩
    · cases e
    · rcases set_get hz with ⟨rfl, e, _⟩ | ⟨hxz, hz⟩
      · cases e; exact .inl ⟨rfl, rfl⟩
      · exact .inr ⟨Ne.symm hxz, Ne.symm hyz, hz⟩
  have here : ((P.vecs.set x (some u)).set y none)[x]? = some (some u) := by
    rw [List.getElem?_set_ne (Ne.symm hxy), List.getElem?_set_self hxl]
  refine ⟨by simp [h.len], ?_, ?_, ?_, ?_, h.wf⟩
  · intro z v hz
    rcases back hz with ⟨rfl, rfl⟩ | ⟨h1, h2, h3⟩
    · obtain ⟨l', e, hr⟩ := h.rep y v hy
      rw [hl] at e; cases e
      exact ⟨l, by rw [List.getElem?_set_ne (Ne.symm hxy),
        List.getElem?_set_self (by rw [← h.len]; exact hxl)], hr⟩
    · obtain ⟨l', e, hr⟩ := h.rep z v h3
      exact ⟨l', by rw [List.getElem?_set_ne (Ne.symm h2), List.getElem?_set_ne (Ne.symm h1), e], hr⟩
  · intro z l' hz
    rcases set_get hz with ⟨rfl, e, _⟩ | ⟨hyz, hz⟩
    · cases e
    · rcases set_get hz with ⟨rfl, e, _⟩ | ⟨hxz, hz⟩
      · exact ⟨u, here⟩
      · obtain ⟨v, hv⟩ := h.live z l' hz
        exact ⟨v, by rw [List.getElem?_set_ne hyz, List.getElem?_set_ne hxz, hv]⟩
  · intro z z' v v' p hz hz' hp hp'
    rcases back hz with ⟨rfl, rfl⟩ | ⟨h1, h2, h3⟩ <;>
      rcases back hz' with ⟨rfl, rfl⟩ | ⟨h1', h2', h3'⟩
    · rfl
    · exact absurd (h.inj y z' _ _ p hy h3' hp hp') (Ne.symm h2')
    · exact absurd (h.inj z y _ _ p h3 hy hp hp') h2
    · exact h.inj z z' _ _ p h3 h3' hp hp'
  · intro p b hb
    obtain ⟨z, v, hz, hp⟩ := h.owned p b hb
    by_cases hzy : z = y
    · subst hzy
      rw [hy] at hz; cases hz
      exact ⟨x, u, here, hp⟩
    · have hzx : z ≠ x := by rintro rfl; rw [hx] at hz; cases hz
      exact ⟨z, v, by rw [List.getElem?_set_ne (Ne.symm hzy), List.getElem?_set_ne (Ne.symm hzx), hz],
        hp⟩

theorem TInv.at {P : Pool UInt8} {T : Texts} (h : TInv c P T) {x : Nat} {v : VecH} {t : List Char}
    (hx : P.vecs[x]? = some (some v)) (ht : T[x]? = some (some t)) : Rep c v P.w (utf8 t) := by
  obtain ⟨t', e, hr⟩ := h.live hx
  rw [ht] at e; cases e
  exact hr

theorem onVecs_asStr {P : Pool UInt8} {T : Texts} (hb : Bytes c) (h : TInv c P T) {x : Nat}
    {v : VecH} {t : List Char} (hx : P.vecs[x]? = some (some v)) (ht : T[x]? = some (some t)) :
    onVecs x (Str.asStr c) [] P = .ok (utf8 t) P := by
  simp only [onVecs, hx, asStr_eq (s := ⟨v, P.w⟩) hb (h.at hx ht), set_self hx]

theorem dropVec_spec {P : Pool UInt8} {T : Texts} (hb : Bytes c) (h : TInv c P T) {x : Nat}
    {t : List Char} (ht : T[x]? = some (some t)) :
    ∃ w', dropVec c x P = .ok () ⟨P.vecs.set x none, w'⟩ ∧
      TInv c ⟨P.vecs.set x none, w'⟩ (T.set x none) ∧ w'.refusals = P.w.refusals := by
  obtain ⟨v, hx, hv⟩ := h.named ht
  obtain ⟨v', e, _⟩ := drop_spec_ok (s := ⟨v, P.w⟩) hb.size_ne hv (fun a _ => hb.noPanic a)
  refine ⟨(P.w.free v.ptr).addDrops (utf8 t), ?_, ?_, rfl⟩
  · unfold dropVec
    simp only [hx, e]
  · have := PInv.remove h hx (utf8 t)
    unfold TInv
    rw [List.map_set]
    exact this

/-- The texts `us` are those of the strings `ys`. -/
def Named (T : Texts) (ys : List Nat) (us : List (List Char)) : Prop :=
  ys.map (T[·]?) = us.map fun u => some (some u)

theorem Named.set {T : Texts} {ys : List Nat} {us : List (List Char)} (h : Named T ys us) {x : Nat}
    (hx : x ∉ ys) (a : Option (List Char)) : Named (T.set x a) ys us := by
  unfold Named at h ⊢
  rw [← h]
  apply List.map_congr_left
  intro y hy
  rw [List.getElem?_set_ne]
  rintro rfl
  exact hx hy

theorem Named.cons {T : Texts} {y : Nat} {ys : List Nat} {us : List (List Char)}
    (h : Named T (y :: ys) us) : ∃ u us', us = u :: us' ∧ T[y]? = some (some u) ∧ Named T ys us' := by
  cases us with
  | nil => simp [Named] at h
  | cons u us =>
    simp only [Named, List.map_cons, List.cons.injEq] at h
    exact ⟨u, us, rfl, h.1, h.2⟩

theorem Named.nil {T : Texts} {us : List (List Char)} (h : Named T [] us) : us = [] := by
  simpa [Named] using h.symm

theorem TInv.names {P : Pool UInt8} {T : Texts} (h : TInv c P T) {ys : List Nat}
    (hy : ∀ y ∈ ys, ∃ v, P.vecs[y]? = some (some v)) :
    ∃ us, Named T ys us ∧ totalLen P ys = (utf8 us.flatten).length := by
  induction ys with
  | nil => exact ⟨[], rfl, rfl⟩
  | cons y ys ih =>
    obtain ⟨us, h1, h2⟩ := ih (fun z hz => hy z (by simp [hz]))
    obtain ⟨v, hv⟩ := hy y (by simp)
    obtain ⟨t, ht, hr⟩ := h.live hv
    refine ⟨t :: us, ?_, ?_⟩
    · simp only [Named, List.map_cons, List.cons.injEq]
      exact ⟨ht, h1⟩
    · simp only [totalLen, hv, List.flatten_cons, utf8_append, List.length_append, h2, hr.len]

theorem takeAll_set (T : Texts) {x : Nat} (a : Option (List Char)) {ys : List Nat} (hx : x ∉ ys) :
    Texts.takeAll (T.set x a) ys = (Texts.takeAll T ys).set x a := by
  induction ys generalizing T with
  | nil => rfl
  | cons y ys ih =>
    simp only [Texts.takeAll]
    rw [List.set_comm _ _ (by rintro rfl; simp at hx), ih _ (by simp at hx; exact hx.2)]

theorem takeAll_length (T : Texts) (ys : List Nat) : (Texts.takeAll T ys).length = T.length := by
  induction ys generalizing T with
  | nil => rfl
  | cons y ys ih => simp [Texts.takeAll, ih]

theorem takeAll_other (T : Texts) {ys : List Nat} {z : Nat} (hz : z ∉ ys) :
    (Texts.takeAll T ys)[z]? = T[z]? := by
  induction ys generalizing T with
  | nil => rfl
  | cons y ys ih =>
    simp only [Texts.takeAll]
    rw [ih _ (fun e => hz (by simp [e])), List.getElem?_set_ne]
    rintro rfl; simp at hz

theorem takeAll_taken (T : Texts) {ys : List Nat} {y : Nat} (hy : y ∈ ys) (hl : y < T.length) :
    (Texts.takeAll T ys)[y]? = some none := by
  induction ys generalizing T with
  | nil => cases hy
  | cons z ys ih =>
    simp only [Texts.takeAll]
    by_cases h : y ∈ ys
    · exact ih _ h (by simpa using hl)
    · rw [takeAll_other _ h]
      rcases List.mem_cons.mp hy with rfl | h'
      · exact List.getElem?_set_self hl
      · exact absurd h' h

theorem dropAll_spec {P : Pool UInt8} {T : Texts} (hb : Bytes c) (h : TInv c P T) {ys : List Nat}
    {us : List (List Char)} (hn : ys.Nodup) (hu : Named T ys us) :
    ∃ P', dropAll c ys P = .ok () P' ∧ TInv c P' (Texts.takeAll T ys) ∧
      P'.w.refusals = P.w.refusals := by
  induction ys generalizing P T us with
  | nil => exact ⟨P, rfl, h, rfl⟩
  | cons y ys ih =>
    obtain ⟨u, us', rfl, h1, h2⟩ := hu.cons
    obtain ⟨w', e, h3, h4⟩ := dropVec_spec hb h h1
    obtain ⟨hy, hn⟩ := List.nodup_cons.mp hn
    obtain ⟨P', e', h5, h6⟩ := ih h3 hn (h2.set hy none)
    refine ⟨P', ?_, h5, h6.trans h4⟩
    unfold dropAll
    rw [M.bind_ok e, e']

theorem extendLoop_spec {boom : Bool} (hb : Bytes c) {x : Nat} {ys : List Nat} :
    ∀ {P : Pool UInt8} {T : Texts} {us : List (List Char)} {t : List Char}, TInv c P T →
    x ∉ ys → ys.Nodup → Named T ys us → T[x]? = some (some t) →
    c.Fits ((utf8 t).length + (utf8 us.flatten).length) →
    Sat c (extendLoop c x boom ys P)
      (fun _ P' => boom = false ∧ P'.w.refusals = P.w.refusals ∧
        TInv c P' (Texts.takeAll (T.set x (some (t ++ us.flatten))) ys))
      (fun P' => (boom = true ∧ P'.w.refusals = P.w.refusals ∧
          TInv c P' (Texts.takeAll (T.set x (some (t ++ us.flatten))) ys)) ∨
        ∃ p q, us = p ++ q ∧ P'.w.refusals = P.w.refusals + 1 ∧
          TInv c P' (Texts.takeAll (T.set x (some (t ++ p.flatten))) ys)) := by
  induction ys with
  | nil =>
    intro P T us t h _ _ hu ht _
    rw [hu.nil]
    have e : T.set x (some (t ++ ([] : List (List Char)).flatten)) = T := by
      simp only [List.flatten_nil, List.append_nil]; exact set_self ht
    unfold extendLoop
    simp only [e, Texts.takeAll]
    cases boom with
    | true => exact .inl ⟨rfl, rfl, h⟩
    | false => exact ⟨rfl, rfl, h⟩
  | cons y ys ih =>
    intro P T us t h hx hn hu ht hf
    obtain ⟨u, us', rfl, hy, hu'⟩ := hu.cons
    obtain ⟨v, hv, hr⟩ := h.named ht
    obtain ⟨vy, hvy, _⟩ := h.named hy
    have hxy : x ≠ y := by rintro rfl; simp at hx
    have hx' : x ∉ ys := fun e => hx (by simp [e])
    obtain ⟨hyn, hn'⟩ := List.nodup_cons.mp hn
    unfold extendLoop
    rw [M.bind_ok (onVecs_asStr hb h hvy hy)]
    have hlen : (utf8 (u :: us').flatten).length = (utf8 u).length + (utf8 us'.flatten).length := by
      simp
    rw [hlen] at hf
    refine Sat.bind (Q := fun _ P1 => P1.w.refusals = P.w.refusals ∧
      TInv c P1 (T.set x (some (t ++ u)))) ?_ ?_
    · refine Sat.onUnwind (onVecs_sat (E := fun P1 => P1.w.refusals = P.w.refusals + 1 ∧
        TInv c P1 T) hv ((pushStr_spec (s := ⟨v, P.w⟩) hb hr h.wf (utf8 u)
          (Fits.mono hf (by omega))).mono ?_ ?_)) ?_
      · rintro _ s' ⟨⟨d, h1⟩, h2⟩
        exact ⟨h2, h.update hv (by rw [utf8_append]; exact h1)⟩
      · rintro s' ⟨⟨d, h1⟩, h2⟩
        refine ⟨h2, ?_⟩
        have := h.update hv h1
        rwa [set_self ht] at this
      · rintro P1 ⟨h1, h2⟩
        obtain ⟨P', e, h3, h4⟩ := dropAll_spec hb h2 hn (us := u :: us')
          (by simp only [Named, List.map_cons, hy, List.cons.injEq, true_and]; exact hu')
        rw [e]
        refine .inr ⟨[], _, rfl, h4.trans h1, ?_⟩
        simpa [set_self ht] using h3
    · rintro _ P1 ⟨h1, h2⟩
      have hy1 : (T.set x (some (t ++ u)))[y]? = some (some u) := by
        rw [List.getElem?_set_ne hxy, hy]
      obtain ⟨w', e, h3, h4⟩ := dropVec_spec hb h2 hy1
      rw [M.bind_ok e]
      have hxl : x < T.length := (List.getElem?_eq_some_iff.mp ht).1
      have ht2 : ((T.set x (some (t ++ u))).set y none)[x]? = some (some (t ++ u)) := by
        rw [List.getElem?_set_ne (Ne.symm hxy), List.getElem?_set_self hxl]
      have eq : ∀ z : List Char, Texts.takeAll (((T.set x (some (t ++ u))).set y none).set x (some z)) ys
          = Texts.takeAll (T.set x (some z)) (y :: ys) := by
        intro z
        simp only [Texts.takeAll]
        congr 1
        rw [List.set_comm _ _ (Ne.symm hxy), List.set_set]
      refine (ih h3 hx' hn' ((hu'.set hx' _).set hyn none) ht2 (by
        rw [utf8_append, List.length_append]; exact Fits.mono hf (by omega))).mono ?_ ?_
      · rintro _ P' ⟨h5, h6, h7⟩
        rw [eq] at h7
        exact ⟨h5, by rw [h6, h4, h1], by simpa using h7⟩
      · rintro P' (⟨h5, h6, h7⟩ | ⟨p, q, h5, h6, h7⟩)
        · rw [eq] at h7
          exact .inl ⟨h5, by rw [h6, h4, h1], by simpa using h7⟩
        · rw [eq] at h7
          exact .inr ⟨u :: p, q, by rw [h5]; rfl, by rw [h6, h4, h1], by simpa using h7⟩

theorem extendStrings_spec {boom : Bool} (hb : Bytes c) {x : Nat} {ys : List Nat}
    {P : Pool UInt8} {T : Texts} {us : List (List Char)} {t : List Char} (h : TInv c P T)
    (hx : x ∉ ys) (hn : ys.Nodup) (hu : Named T ys us) (ht : T[x]? = some (some t))
    (hf : c.Fits ((utf8 t).length + (utf8 us.flatten).length)) :
    Sat c (extendStrings c x ys boom P)
      (fun _ P' => boom = false ∧ P'.w.refusals = P.w.refusals ∧
        TInv c P' (Texts.takeAll (T.set x (some (t ++ us.flatten))) ys))
      (fun P' => (boom = true ∧ P'.w.refusals = P.w.refusals ∧
          TInv c P' (Texts.takeAll (T.set x (some (t ++ us.flatten))) ys)) ∨
        ∃ p q, us = p ++ q ∧ P'.w.refusals = P.w.refusals + 1 ∧
          TInv c P' (Texts.takeAll (T.set x (some (t ++ p.flatten))) ys)) := by
  obtain ⟨v, hv, hr⟩ := h.named ht
  unfold extendStrings
  have ecap : onVecs x (M.gets fun s => Vec.capacity c s.self) 0 P = .ok v.cap P := by
    simp only [onVecs, hv, M.gets_apply, capacity_eq hb.size_ne, set_self hv]
  rw [M.bind_ok ecap]
  cases ys with
  | nil => exact extendLoop_spec hb h hx hn hu ht hf
  | cons y ys =>
    simp only
    by_cases hc : v.cap = 0
    · rw [if_pos hc]
      obtain ⟨u, us', rfl, hy, hu'⟩ := hu.cons
      obtain ⟨vy, hvy, _⟩ := h.named hy
      have hxy : x ≠ y := by rintro rfl; simp at hx
      have hx' : x ∉ ys := fun e => hx (by simp [e])
      obtain ⟨hyn, hn'⟩ := List.nodup_cons.mp hn
      have ht0 : t = [] := by
        have := hr.le_cap
        rw [hc] at this
        exact utf8_eq_nil (List.length_eq_zero_iff.mp (by omega))
      subst ht0
      obtain ⟨w', e, h3, h4⟩ := dropVec_spec hb h ht
      have hxl : x < P.vecs.length := (List.getElem?_eq_some_iff.mp hv).1
      have hxT : x < T.length := (List.getElem?_eq_some_iff.mp ht).1
      have hy1 : (P.vecs.set x none)[y]? = some (some vy) := by rw [List.getElem?_set_ne hxy, hvy]
      have etake : takeVec c x y P = .ok () ⟨(P.vecs.set x (some vy)).set y none, w'⟩ := by
        unfold takeVec
        rw [M.bind_ok e, M.modify_apply]
        simp only [hy1, Option.getD_some, List.set_set]
      rw [M.bind_ok etake]
      have hinv : TInv c ⟨(P.vecs.set x (some vy)).set y none, w'⟩
          ((T.set x (some u)).set y none) := by
        have := PInv.move h3 (x := x) (y := y) (u := vy) (l := utf8 u) hxy
          (by simp [hxl]) hy1 (by
            rw [List.getElem?_map, List.getElem?_set_ne hxy, hy]; rfl)
        unfold TInv
        simpa only [List.set_set, List.map_set, Option.map_some, Option.map_none] using this
      have ht2 : ((T.set x (some u)).set y none)[x]? = some (some u) := by
        rw [List.getElem?_set_ne (Ne.symm hxy), List.getElem?_set_self hxT]
      have eq : ∀ z : List Char, Texts.takeAll (((T.set x (some u)).set y none).set x (some z)) ys
          = Texts.takeAll (T.set x (some z)) (y :: ys) := by
        intro z
        simp only [Texts.takeAll]
        congr 1
        rw [List.set_comm _ _ (Ne.symm hxy), List.set_set]
      refine (extendLoop_spec hb hinv hx' hn' ((hu'.set hx' _).set hyn none) ht2
        (by simpa using hf)).mono ?_ ?_
      · rintro _ P' ⟨h5, h6, h7⟩
        rw [eq] at h7
        exact ⟨h5, h6.trans h4, by simpa using h7⟩
      · rintro P' (⟨h5, h6, h7⟩ | ⟨p, q, h5, h6, h7⟩)
        · rw [eq] at h7
          exact .inl ⟨h5, h6.trans h4, by simpa using h7⟩
        · rw [eq] at h7
          exact .inr ⟨u :: p, q, by rw [h5]; rfl, by rw [h6]; exact congrArg (· + 1) h4,
            by simpa using h7⟩
    · rw [if_neg hc]
      exact extendLoop_spec hb h hx hn hu ht hf

theorem addStr_spec {P : Pool UInt8} {T : Texts} (hb : Bytes c) (h : TInv c P T) {x y : Nat}
    {t u : List Char} (ht : T[x]? = some (some t)) (hu : T[y]? = some (some u))
    (hf : c.Fits ((utf8 t).length + (utf8 u).length)) :
    Sat c (addStr c x y P)
      (fun _ P' => P'.w.refusals = P.w.refusals ∧ TInv c P' (T.set x (some (t ++ u))))
      (fun P' => P'.w.refusals = P.w.refusals + 1 ∧ TInv c P' (T.set x none)) := by
  obtain ⟨v, hv, hr⟩ := h.named ht
  obtain ⟨vy, hvy, _⟩ := h.named hu
  unfold addStr
  rw [M.bind_ok (onVecs_asStr hb h hvy hu)]
  refine Sat.onUnwind (onVecs_sat (E := fun P1 => P1.w.refusals = P.w.refusals + 1 ∧
    TInv c P1 T) hv ((pushStr_spec (s := ⟨v, P.w⟩) hb hr h.wf (utf8 u) hf).mono ?_ ?_)) ?_
  · rintro _ s' ⟨⟨d, h1⟩, h2⟩
    exact ⟨h2, h.update hv (by rw [utf8_append]; exact h1)⟩
  · rintro s' ⟨⟨d, h1⟩, h2⟩
    refine ⟨h2, ?_⟩
    have := h.update hv h1
    rwa [set_self ht] at this
  · rintro P1 ⟨h1, h2⟩
    obtain ⟨w', e, h3, h4⟩ := dropVec_spec hb h2 ht
    rw [e]
    exact ⟨h4.trans h1, h3⟩

theorem Named.lt {T : Texts} {ys : List Nat} {us : List (List Char)} (h : Named T ys us) :
    ∀ y ∈ ys, y < T.length := by
  induction ys generalizing us with
  | nil => simp
  | cons y ys ih =>
    obtain ⟨u, us', rfl, h1, h2⟩ := h.cons
    intro z hz
    rcases List.mem_cons.mp hz with rfl | hz
    · exact (List.getElem?_eq_some_iff.mp h1).1
    · exact ih h2 z hz

theorem Named.append {T : Texts} {ys : List Nat} {us : List (List Char)} (h : Named T ys us)
    (a : Option (List Char)) : Named (T ++ [a]) ys us := by
  have hlt := h.lt
  unfold Named at h ⊢
  rw [← h]
  apply List.map_congr_left
  intro y hy
  rw [List.getElem?_append_left (hlt y hy)]

theorem collectStrings_spec {boom : Bool} (hb : Bytes c) {ys : List Nat} {P : Pool UInt8} {T : Texts}
    {us : List (List Char)} (h : TInv c P T) (hn : ys.Nodup) (hu : Named T ys us)
    (hf : c.Fits (utf8 us.flatten).length) :
    Sat c (collectStrings c ys boom P)
      (fun _ P' => boom = false ∧ P'.w.refusals = P.w.refusals ∧
        TInv c P' (Texts.takeAll (T ++ [some us.flatten]) ys))
      (fun P' => (boom = true ∧ P'.w.refusals = P.w.refusals ∨
          P'.w.refusals = P.w.refusals + 1) ∧
        TInv c P' (Texts.takeAll (T ++ [none]) ys)) := by
  have hlen : P.vecs.length = T.length := by simpa using PInv.len h
  have hx : T.length ∉ ys := fun e => absurd (hu.lt _ e) (Nat.lt_irrefl _)
  unfold collectStrings
  rw [M.bind_ok (M.gets_apply _ _)]
  have e : tcreating Vec.new P = .ok .unit ⟨P.vecs ++ [some (emptyVec P.w)], P.w⟩ := rfl
  rw [M.bind_ok e, hlen]
  have h1 : TInv c ⟨P.vecs ++ [some (emptyVec P.w)], P.w⟩ (T ++ [some []]) :=
    h.add (t := []) ((Fresh.new h.wf).kept h.wf
      (Kept.refl (s := ⟨emptyVec P.w, P.w⟩) (emptyVec_rep P.w) h.wf))
  have hset : ∀ a b : Option (List Char), (T ++ [a]).set T.length b = T ++ [b] := by
    intro a b; simp
  refine Sat.onUnwind ((extendStrings_spec (x := T.length) (t := []) hb h1 hx hn (hu.append _)
    (by simp) (by simpa using hf)).mono (Q' := fun _ P' => boom = false ∧
      P'.w.refusals = P.w.refusals ∧ TInv c P' (Texts.takeAll (T ++ [some us.flatten]) ys))
      (E' := fun P' => (boom = true ∧ P'.w.refusals = P.w.refusals ∨
          P'.w.refusals = P.w.refusals + 1) ∧
        ∃ t, TInv c P' (Texts.takeAll (T ++ [some t]) ys)) ?_ ?_) ?_
  · rintro _ P' ⟨h2, h3, h4⟩
    exact ⟨h2, h3, by simpa only [hset, List.nil_append] using h4⟩
  · rintro P' (⟨h2, h3, h4⟩ | ⟨p, q, h2, h3, h4⟩)
    · exact ⟨.inl ⟨h2, h3⟩, _, by simpa only [hset, List.nil_append] using h4⟩
    · exact ⟨.inr h3, _, by simpa only [hset, List.nil_append] using h4⟩
  · rintro P1 ⟨h2, t, h3⟩
    have eT : ∀ a : Option (List Char),
        Texts.takeAll (T ++ [a]) ys = (Texts.takeAll (T ++ [none]) ys).set T.length a := by
      intro a
      rw [← takeAll_set _ _ hx, hset]
    have hL : T.length < (Texts.takeAll (T ++ [none]) ys).length := by
      rw [takeAll_length]; simp
    obtain ⟨w', e, h4, h5⟩ := dropVec_spec (x := T.length) (t := t) hb h3 (by
      rw [eT, List.getElem?_set_self hL])
    rw [e]
    refine ⟨?_, ?_⟩
    · rw [h5]; exact h2
    · rw [eT, List.set_set] at h4
      rw [eT]; exact h4

/-! ## One call of a client program -/

/-- A call in a pool with texts `T` is allowed by the specification. -/
def TCmdOk (c : Cfg UInt8) (cmd : TextCmd) (T : Texts) (P : Pool UInt8) (out : Option TextOut)
    (P' : Pool UInt8) : Prop :=
  ∃ T', TextStep cmd ⟨out, P'.w.refusals != P.w.refusals⟩ T T' ∧ TInv c P' T'

theorem TCmdOk.same {cmd : TextCmd} {T T' : Texts} {P P' : Pool UInt8} {out : Option TextOut}
    (hr : P'.w.refusals = P.w.refusals) (he : TextStep cmd ⟨out, false⟩ T T') (hi : TInv c P' T') :
    TCmdOk c cmd T P out P' := by
  refine ⟨T', ?_, hi⟩
  have : (P'.w.refusals != P.w.refusals) = false := by simp [hr]
  rw [this]; exact he

theorem TCmdOk.refused {cmd : TextCmd} {T T' : Texts} {P P' : Pool UInt8} {out : Option TextOut}
    (hr : P'.w.refusals = P.w.refusals + 1) (he : TextStep cmd ⟨out, true⟩ T T')
    (hi : TInv c P' T') : TCmdOk c cmd T P out P' := by
  refine ⟨T', ?_, hi⟩
  have : (P'.w.refusals != P.w.refusals) = true := by simp [hr]
  rw [this]; exact he

theorem tcreating_sat {m : M (World UInt8) VecH} {P : Pool UInt8}
    {Q : Option TextOut → Pool UInt8 → Prop}
    (h : Sat c (m P.w) (fun v w' => Q (some .unit) ⟨P.vecs ++ [some v], w'⟩)
      (fun w' => Q none ⟨P.vecs, w'⟩)) :
    Sat c (tcreating m P) (fun o P' => Q (some o) P') (fun P' => Q none P') := by
  unfold tcreating
  cases hr : m P.w <;> rw [hr] at h <;> exact h

theorem tcreatingOpt_sat {m : M (World UInt8) (Option VecH)} {P : Pool UInt8}
    {Q : Option TextOut → Pool UInt8 → Prop}
    (h : Sat c (m P.w) (fun r w' => match r with
        | some v => Q (some .unit) ⟨P.vecs ++ [some v], w'⟩
        | none => Q (some .err) ⟨P.vecs, w'⟩)
      (fun w' => Q none ⟨P.vecs, w'⟩)) :
    Sat c (tcreatingOpt m P) (fun o P' => Q (some o) P') (fun P' => Q none P') := by
  unfold tcreatingOpt
  cases hr : m P.w with
  | ok r w' =>
    rw [hr] at h
    cases r <;> exact h
  | panic w' => rw [hr] at h; exact h
  | abort => rw [hr] at h; exact h
  | ub u => rw [hr] at h; exact h

theorem runText_spec {P : Pool UInt8} {T : Texts} (hb : Bytes c) (h : TInv c P T) (cmd : TextCmd)
    (hl : cmd.Legal c P) :
    Sat c (runText c cmd P) (fun out P' => TCmdOk c cmd T P (some out) P')
      (fun P' => TCmdOk c cmd T P none P') := by
  cases cmd with
  | new =>
    show Sat c (tcreating Vec.new P) _ _
    refine tcreating_sat (Q := TCmdOk c .new T P) ?_
    rw [new_eq]
    exact .same rfl (.new T) (h.add (t := []) ((Fresh.new h.wf).kept h.wf
      (Kept.refl (s := ⟨emptyVec P.w, P.w⟩) (emptyVec_rep P.w) h.wf)))
  | withCapacity n =>
    refine tcreating_sat ((withCapacity_spec hb.size_ne h.wf hl).mono ?_ ?_)
    · rintro v w' ⟨h1, _, h2, _⟩
      exact .same h2 (.withCapacity n T) (h.add (t := []) ⟨⟨_, h1.made⟩, h2⟩)
    · rintro w' ⟨rfl, _, _⟩
      exact .refused rfl (.withCapacityRefused n T) (h.clean ⟨_, .refuse h.wf⟩)
  | fromUtf8 l =>
    refine tcreatingOpt_sat ((makeUtf8_spec hb h.wf l hl).mono ?_ ?_)
    · rintro r w' h1
      cases r with
      | none => exact .same h1.2.2 (.fromUtf8Err l T h1.1) (h.clean h1.2.1)
      | some v =>
        obtain ⟨t, rfl, h2⟩ := h1
        exact .same h2.2 (.fromUtf8 t T) (h.add h2)
    · rintro w' ⟨h1, h2⟩
      exact .refused h2 (.fromUtf8Refused l T) (h.clean h1)
  | fromUtf16 us =>
    refine tcreatingOpt_sat ((fromUtf16_spec hb h.wf us hl.2 hl.1).mono ?_ ?_)
    · rintro r w' h1
      cases r with
      | none => exact .same h1.2.2 (.fromUtf16Err us T h1.1) (h.clean h1.2.1)
      | some v =>
        obtain ⟨t, rfl, h2⟩ := h1
        exact .same h2.2 (.fromUtf16 t T) (h.add h2)
    · rintro w' ⟨h1, h2⟩
      exact .refused h2 (.fromUtf16Refused us T) (h.clean h1)
  | collectChars it =>
    refine tcreating_sat ((fromChars_spec hb h.wf ⟨it.items, it.hint, it.boom⟩ hl.1 hl.2.1
      hl.2.2).mono ?_ ?_)
    · rintro v w' ⟨h1, h2⟩
      exact .same h2.2 (.collectChars it T h1) (h.add h2)
    · rintro w' ⟨(⟨h1, h2⟩ | h2), h3⟩
      · exact .same h2 (.collectCharsPanic it T h1) (h.clean h3)
      · exact .refused h2 (.collectCharsRefused it T) (h.clean h3)
  | collectStrs it =>
    refine tcreating_sat ((fromStrs_spec hb h.wf ⟨it.items.map utf8, it.hint, it.boom⟩
      (by simp only [utf8_flatten]; exact hl)).mono ?_ ?_)
    · rintro v w' ⟨h1, h2⟩
      exact .same h2.2 (.collectStrs it T h1) (h.add (by rw [← utf8_flatten]; exact h2))
    · rintro w' ⟨(⟨h1, h2⟩ | h2), h3⟩
      · exact .same h2 (.collectStrsPanic it T h1) (h.clean h3)
      · exact .refused h2 (.collectStrsRefused it T) (h.clean h3)
  | clone x =>
    obtain ⟨v, hx⟩ := hl
    obtain ⟨t, ht, hv⟩ := h.live hx
    show Sat c ((onVecs x (Str.asStr c) [] >>= fun l => tcreating (Str.cloneFrom c l)) P) _ _
    rw [M.bind_ok (onVecs_asStr hb h hx ht)]
    refine tcreating_sat ((cloneFrom_spec hb.size_ne h.wf (utf8 t)
      (Fits.mono hv.fits hv.le_cap)).mono ?_ ?_)
    · rintro v' w' ⟨ys, h1, h2, h3⟩
      rw [h1.bytes hb] at h2
      exact .same h3 (.clone x t T ht) (h.add ⟨⟨_, h2⟩, h3⟩)
    · rintro w' (⟨h1, h2⟩ | ⟨pre, a, post, ys, _, _, ⟨k, h3⟩, _⟩)
      · exact .refused h2 (.cloneRefused x T) (h.clean ⟨_, h1⟩)
      · rw [hb.clone] at h3; cases h3
  | on x o =>
    obtain ⟨v, hx, ho⟩ := hl
    obtain ⟨t, ht, hv⟩ := h.live hx
    refine onVecs_sat hx ((runTextOp_spec (s := ⟨v, P.w⟩) hb hv h.wf o ho).mono ?_ ?_)
    · rintro out s' ⟨t', h1, d, h2⟩
      exact ⟨_, .on x o _ t t' T ht h1, h.update hx h2⟩
    · rintro s' ⟨t', h1, d, h2⟩
      exact ⟨_, .on x o _ t t' T ht h1, h.update hx h2⟩
  | add x y =>
    obtain ⟨_, v, u, hx, hy, hf⟩ := hl
    obtain ⟨t, ht, hv⟩ := h.live hx
    obtain ⟨t', ht', hv'⟩ := h.live hy
    refine tquiet_sat ((addStr_spec hb h ht ht' (by rw [← hv.len, ← hv'.len]; exact hf)).mono ?_ ?_)
    · rintro _ P' ⟨h1, h2⟩
      exact .same h1 (.add x y t t' T ht ht') h2
    · rintro P' ⟨h1, h2⟩
      exact .refused h1 (.addRefused x y T) h2
  | extendStrings x ys boom =>
    obtain ⟨hx, hn, ⟨v, hv, hf⟩, hy⟩ := hl
    obtain ⟨t, ht, hr⟩ := h.live hv
    obtain ⟨us, hu, hlen⟩ := h.names hy
    refine tquiet_sat ((extendStrings_spec hb h hx hn hu ht
      (by rw [← hr.len, ← hlen]; exact hf)).mono ?_ ?_)
    · rintro _ P' ⟨rfl, h1, h2⟩
      exact .same h1 (.extendStrings x ys t us T ht hu) h2
    · rintro P' (⟨rfl, h1, h2⟩ | ⟨p, q, h1, h2, h3⟩)
      · exact .same h1 (.extendStringsPanic x ys t us T ht hu) h2
      · exact .refused h2 (.extendStringsRefused x ys boom t us p q T ht hu h1) h3
  | collectStrings ys boom =>
    obtain ⟨hn, hf, hy⟩ := hl
    obtain ⟨us, hu, hlen⟩ := h.names hy
    refine tquiet_sat ((collectStrings_spec hb h hn hu (by rw [← hlen]; exact hf)).mono ?_ ?_)
    · rintro _ P' ⟨rfl, h1, h2⟩
      exact .same h1 (.collectStrings ys us T hu) h2
    · rintro P' ⟨(⟨rfl, h1⟩ | h1), h2⟩
      · exact .same h1 (.collectStringsPanic ys T) h2
      · exact .refused h1 (.collectStringsRefused ys boom T) h2
  | drop x =>
    obtain ⟨v, hx⟩ := hl
    obtain ⟨t, ht, hv⟩ := h.live hx
    obtain ⟨w', e, h1, h2⟩ := dropVec_spec hb h ht
    refine tquiet_sat ?_
    rw [e]
    exact .same h2 (.drop x t T ht) h1

/-! ## Whole histories -/

theorem TextReaches.inv {P0 P : Pool UInt8} {hist : TextHistory} (hb : Bytes c) (h0 : P0.Initial)
    (h : TextReaches c P0 hist P) : ∃ T, TextRuns hist T ∧ TInv c P T := by
  induction h with
  | start => exact ⟨[], .start, .initial h0⟩
  | @step hist P cmd ev P' _ hl he ih =>
    obtain ⟨T, h1, h2⟩ := ih
    have key := runText_spec hb h2 cmd hl
    cases he with
    | ret hr =>
      rw [hr] at key
      obtain ⟨T', h3, h4⟩ := key
      exact ⟨T', .step h1 h3, h4⟩
    | panic hr =>
      rw [hr] at key
      obtain ⟨T', h3, h4⟩ := key
      exact ⟨T', .step h1 h3, h4⟩

end Lokky
