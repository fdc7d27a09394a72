import Verif.Proofs.TextPool
import Verif.Proofs.TextOrder

/-!
# C40, C41, C50: client programs with any number of strings

`TextReaches c P0 hist P` says: a client that calls the functions of `String` in some order, catching
every panic, sees the history `hist` and arrives in state `P`. `Spec.TextRuns` is the specification on
lists of characters (Verif/Spec/TextPrograms.lean).
-/

namespace Lokky
open Utf8 Spec
variable {c : Cfg UInt8} {P0 P : Pool UInt8} {hist : TextHistory}

/-- C40. Whatever the client did, every string holds the UTF-8 encoding of some text. -/
theorem C40_always_utf8 (hb : Bytes c) (h0 : P0.Initial) (h : TextReaches c P0 hist P) (x : Nat)
    (v : VecH) (hv : P.vecs[x]? = some (some v)) :
    ∃ t, Str.asStr c ⟨v, P.w⟩ = .ok (utf8 t) ⟨v, P.w⟩ := by
  obtain ⟨T, _, h2⟩ := h.inv hb h0
  obtain ⟨t, _, hr⟩ := h2.live hv
  exact ⟨t, asStr_eq (s := ⟨v, P.w⟩) hb hr⟩

/-- C40. In every reachable state every permitted call is free of undefined behaviour: it returns or
panics. -/
theorem C40_memory_safe (hb : Bytes c) (h0 : P0.Initial) (h : TextReaches c P0 hist P)
    (cmd : TextCmd) (hl : cmd.Legal c P) :
    (∃ ev P', TextHappens c P cmd ev P') ∧ ∀ u, runText c cmd P ≠ .ub u := by
  obtain ⟨T, h1, h2⟩ := h.inv hb h0
  have key := runText_spec hb h2 cmd hl
  refine ⟨?_, fun u => key.noUB u⟩
  cases hr : runText c cmd P with
  | ok o P' => exact ⟨_, P', .ret hr⟩
  | panic P' => exact ⟨_, P', .panic hr⟩
  | abort =>
    rw [hr] at key
    obtain ⟨a, ha⟩ := key
    rw [hb.noPanic a] at ha; cases ha
  | ub u => rw [hr] at key; exact key.elim

/-- C41. Every history seen by a client is a history of the specification on lists of characters, and
afterwards every string shows the encoding of the text the specification says. -/
theorem C41_string_is_text (hb : Bytes c) (h0 : P0.Initial) (h : TextReaches c P0 hist P) :
    ∃ T, TextRuns hist T ∧
      (∀ x : Nat, (∃ v, P.vecs[x]? = some (some v)) ↔ ∃ t, T[x]? = some (some t)) ∧
      ∀ (x : Nat) (v : VecH) (t : List Char), P.vecs[x]? = some (some v) → T[x]? = some (some t) →
        Str.asStr c ⟨v, P.w⟩ = .ok (utf8 t) ⟨v, P.w⟩ ∧
        Vec.len ⟨v, P.w⟩ = .ok (utf8 t).length ⟨v, P.w⟩ := by
  obtain ⟨T, h1, h2⟩ := h.inv hb h0
  refine ⟨T, h1, fun x => ⟨?_, ?_⟩, ?_⟩
  · rintro ⟨v, hv⟩
    obtain ⟨t, ht, _⟩ := h2.live hv
    exact ⟨t, ht⟩
  · rintro ⟨t, ht⟩
    obtain ⟨v, hv, _⟩ := h2.named ht
    exact ⟨v, hv⟩
  · intro x v t hv ht
    have hr := h2.at hv ht
    exact ⟨asStr_eq (s := ⟨v, P.w⟩) hb hr, len_eq (s := ⟨v, P.w⟩) hr⟩

/-- C41. The specification of calls on one string leaves no freedom: unless the allocator refuses, the
returned value (or panic) and the resulting text are determined. -/
theorem C41_determined {o : TextOp} {ev ev' : TextEvent} {t t1 t2 : List Char}
    (h : TextEdit o ev t t1) (h' : TextEdit o ev' t t2) (hr : ev.refused = false)
    (hr' : ev'.refused = false) : ev = ev' ∧ t1 = t2 := by
  have bd : ∀ (p q : List Char), Boundary (p ++ q) (utf8 p).length := fun p q => ⟨p, q, rfl, rfl⟩
  cases h with
  | pop ch =>
    generalize e : t1 ++ [ch] = t at h'
    cases h' with
    | pop ch' =>
      obtain ⟨rfl, e2⟩ := List.append_inj' e rfl
      cases e2; exact ⟨rfl, rfl⟩
    | popNone => simp at e
  | popNone =>
    generalize e : ([] : List Char) = t at h'
    cases h' with
    | pop ch' => simp at e
    | popNone => exact ⟨rfl, rfl⟩
  | insert i ch p q hp =>
    generalize e : p ++ q = t at h'
    cases h' with
    | insert _ _ p' q' hp' =>
      obtain ⟨rfl, rfl⟩ := splitsAt_unique ⟨rfl, hp⟩ ⟨e, hp'⟩
      exact ⟨rfl, rfl⟩
    | insertBad _ _ _ hb => exact absurd (by subst hp; subst e; exact bd p q) hb
    | insertRefused => cases hr'
  | insertBad i ch _ hb =>
    cases h' with
    | insert _ _ p' q' hp' => exact absurd (by subst hp'; exact bd p' q') hb
    | insertBad => exact ⟨rfl, rfl⟩
    | insertRefused => cases hr'
  | insertStr i x p q hp =>
    generalize e : p ++ q = t at h'
    cases h' with
    | insertStr _ _ p' q' hp' =>
      obtain ⟨rfl, rfl⟩ := splitsAt_unique ⟨rfl, hp⟩ ⟨e, hp'⟩
      exact ⟨rfl, rfl⟩
    | insertStrBad _ _ _ hb => exact absurd (by subst hp; subst e; exact bd p q) hb
    | insertStrRefused => cases hr'
  | insertStrBad i x _ hb =>
    cases h' with
    | insertStr _ _ p' q' hp' => exact absurd (by subst hp'; exact bd p' q') hb
    | insertStrBad => exact ⟨rfl, rfl⟩
    | insertStrRefused => cases hr'
  | remove i ch p q hp =>
    generalize e : p ++ ch :: q = t at h'
    cases h' with
    | remove _ ch' p' q' hp' =>
      obtain ⟨rfl, e2⟩ := splitsAt_unique ⟨rfl, hp⟩ ⟨e, hp'⟩
      cases e2; exact ⟨rfl, rfl⟩
    | removeBad _ _ hb =>
      subst hp; subst e
      rcases hb with hb | hb
      · exact absurd (bd p _) hb
      · have := utf8_pos ch q
        simp only [utf8_append, List.length_append] at hb
        omega
  | removeBad i _ hb =>
    cases h' with
    | remove _ ch' p' q' hp' =>
      subst hp'
      rcases hb with hb | hb
      · exact absurd (bd p' _) hb
      · have := utf8_pos ch' q'
        simp only [utf8_append, List.length_append] at hb
        omega
    | removeBad => exact ⟨rfl, rfl⟩
  | truncate k _ q hp =>
    generalize e : t1 ++ q = t at h'
    cases h' with
    | truncate _ _ q' hp' =>
      obtain ⟨rfl, _⟩ := splitsAt_unique ⟨rfl, hp⟩ ⟨e, hp'⟩
      exact ⟨rfl, rfl⟩
    | truncateLong _ _ hk =>
      subst hp; subst e
      refine ⟨rfl, ?_⟩
      have : utf8 q = [] := by
        rw [utf8_append, List.length_append] at hk
        exact List.length_eq_zero_iff.mp (by omega)
      rw [utf8_eq_nil this]; simp
    | truncateBad _ _ hb => exact absurd (by subst hp; subst e; exact bd t1 q) hb
  | truncateLong k _ hk =>
    cases h' with
    | truncate _ _ q' hp' =>
      subst hp'
      refine ⟨rfl, ?_⟩
      have : utf8 q' = [] := by
        rw [utf8_append, List.length_append] at hk
        exact List.length_eq_zero_iff.mp (by omega)
      rw [utf8_eq_nil this]; simp
    | truncateLong => exact ⟨rfl, rfl⟩
    | truncateBad _ _ hb hk' => omega
  | truncateBad k _ hb hk =>
    cases h' with
    | truncate _ _ q' hp' => exact absurd (by subst hp'; exact bd t2 q') hb
    | truncateLong _ _ hk' => omega
    | truncateBad => exact ⟨rfl, rfl⟩
  | retain f _ h1 =>
    cases h' with
    | retain => exact ⟨rfl, rfl⟩
    | retainPanic _ _ h2 => omega
  | retainPanic f _ h1 =>
    cases h' with
    | retain _ _ h2 => omega
    | retainPanic => exact ⟨rfl, rfl⟩
  | extendChars it _ h1 =>
    cases h' with
    | extendChars => exact ⟨rfl, rfl⟩
    | extendCharsPanic _ _ h2 => rw [h1] at h2; cases h2
    | extendCharsRefused => cases hr'
  | extendCharsPanic it _ h1 =>
    cases h' with
    | extendChars _ _ h2 => rw [h1] at h2; cases h2
    | extendCharsPanic => exact ⟨rfl, rfl⟩
    | extendCharsRefused => cases hr'
  | extendStrs it _ h1 =>
    cases h' with
    | extendStrs => exact ⟨rfl, rfl⟩
    | extendStrsPanic _ _ h2 => rw [h1] at h2; cases h2
    | extendStrsRefused => cases hr'
  | extendStrsPanic it _ h1 =>
    cases h' with
    | extendStrs _ _ h2 => rw [h1] at h2; cases h2
    | extendStrsPanic => exact ⟨rfl, rfl⟩
    | extendStrsRefused => cases hr'
  | pushRefused => cases hr
  | pushStrRefused => cases hr
  | insertRefused => cases hr
  | insertStrRefused => cases hr
  | extendCharsRefused => cases hr
  | extendStrsRefused => cases hr
  | reserveRefused => cases hr
  | reserveExactRefused => cases hr
  | push => cases h' with
    | push => exact ⟨rfl, rfl⟩
    | pushRefused => cases hr'
  | pushStr => cases h' with
    | pushStr => exact ⟨rfl, rfl⟩
    | pushStrRefused => cases hr'
  | reserve => cases h' with
    | reserve => exact ⟨rfl, rfl⟩
    | reserveRefused => cases hr'
  | reserveExact => cases h' with
    | reserveExact => exact ⟨rfl, rfl⟩
    | reserveExactRefused => cases hr'
  | clear => cases h'; exact ⟨rfl, rfl⟩
  | read => cases h'; exact ⟨rfl, rfl⟩
  | len => cases h'; exact ⟨rfl, rfl⟩

/-- C41. No memory is leaked or shared: a block is live iff it is the buffer of exactly one live
string. -/
theorem C41_no_leak (hb : Bytes c) (h0 : P0.Initial) (h : TextReaches c P0 hist P) (p : Nat) :
    P.w.heap p ≠ none ↔
      ∃ x : Nat, (∃ v : VecH, P.vecs[x]? = some (some v) ∧ v.ptr = some p) ∧
        ∀ y : Nat, (∃ v : VecH, P.vecs[y]? = some (some v) ∧ v.ptr = some p) → y = x := by
  obtain ⟨T, h1, h2⟩ := h.inv hb h0
  constructor
  · intro hp
    obtain ⟨b, hb⟩ := Option.ne_none_iff_exists'.mp hp
    obtain ⟨x, v, hx, hv⟩ := PInv.owned h2 p b hb
    refine ⟨x, ⟨v, hx, hv⟩, ?_⟩
    rintro y ⟨v', hy, hv'⟩
    exact PInv.inj h2 y x v' v p hy hx hv' hv
  · rintro ⟨x, ⟨v, hx, hv⟩, _⟩
    obtain ⟨t, _, hr⟩ := h2.live hx
    rcases hr.buf with ⟨h3, _⟩ | ⟨q, b, _, hq, hb, _⟩
    · rw [hv] at h3; cases h3
    · rw [hv] at hq; cases hq
      simp [hb]

/-- C50. Extending a string with other strings, which are moved into it: all of them are appended in
order, and they are gone. The same texts result if the string takes over the first buffer. -/
theorem C50_extend_strings {T : Texts} {x : Nat} {ys : List Nat} {us : List (List Char)}
    {t : List Char} (hb : Bytes c) (h : TInv c P T) (hx : x ∉ ys) (hn : ys.Nodup)
    (hu : ys.map (T[·]?) = us.map fun u => some (some u)) (ht : T[x]? = some (some t))
    (hf : c.Fits ((utf8 t).length + (utf8 us.flatten).length)) :
    Sat c (extendStrings c x ys false P)
      (fun _ P' => ∃ T', TInv c P' T' ∧ T'[x]? = some (some (t ++ us.flatten)) ∧
        (∀ y ∈ ys, T'[y]? = some none) ∧ ∀ z, z ≠ x → z ∉ ys → T'[z]? = T[z]?)
      (fun P' => P'.w.refusals = P.w.refusals + 1) := by
  refine (extendStrings_spec hb h hx hn hu ht hf).mono ?_ ?_
  · rintro _ P' ⟨_, _, h1⟩
    refine ⟨_, h1, ?_, ?_, ?_⟩
    · rw [takeAll_set _ _ hx, List.getElem?_set_self]
      rw [takeAll_length]
      exact (List.getElem?_eq_some_iff.mp ht).1
    · intro y hy
      refine takeAll_taken _ hy ?_
      rw [List.length_set]
      exact Named.lt hu y hy
    · intro z hz hz'
      rw [takeAll_other _ hz', List.getElem?_set_ne (Ne.symm hz)]
  · rintro P' (⟨h1, _⟩ | ⟨p, q, _, h2, _⟩)
    · cases h1
    · exact h2

/-- C50. Collecting strings into a new one. -/
theorem C50_collect_strings {T : Texts} {ys : List Nat} {us : List (List Char)} (hb : Bytes c)
    (h : TInv c P T) (hn : ys.Nodup) (hu : ys.map (T[·]?) = us.map fun u => some (some u))
    (hf : c.Fits (utf8 us.flatten).length) :
    Sat c (collectStrings c ys false P)
      (fun _ P' => ∃ T', TInv c P' T' ∧ T'[T.length]? = some (some us.flatten) ∧
        (∀ y ∈ ys, T'[y]? = some none) ∧ ∀ z, z < T.length → z ∉ ys → T'[z]? = T[z]?)
      (fun P' => P'.w.refusals = P.w.refusals + 1) := by
  have hlt := Named.lt hu
  refine (collectStrings_spec hb h hn hu hf).mono ?_ ?_
  · rintro _ P' ⟨_, _, h1⟩
    refine ⟨_, h1, ?_, ?_, ?_⟩
    · rw [takeAll_other _ (fun e => absurd (hlt _ e) (Nat.lt_irrefl _))]; simp
    · intro y hy
      refine takeAll_taken _ hy ?_
      have := hlt y hy
      simp; omega
    · intro z hz hz'
      rw [takeAll_other _ hz', List.getElem?_append_left hz]
  · rintro P' ⟨(⟨h1, _⟩ | h1), _⟩
    · cases h1
    · exact h1

/-- C50. Extending with characters appends them all in order (or, if the iterator panics at its end,
all of them before the panic), whatever the size hint was. -/
theorem C50_extend_chars {s : VSt UInt8} {t : List Char} (hb : Bytes c)
    (h : Rep c s.self s.w (utf8 t)) (hw : s.w.WF) (it : Iter Char)
    (hp : ∀ ch ∈ it.items, PushOk c ch) (hr : RoomFits c s.self.cap (utf8 t).length it.hint)
    (hf : c.Fits ((utf8 t).length + (utf8 it.items).length)) :
    Sat c (Str.extendChars c it s)
      (fun _ s' => it.boom = false ∧ Rep c s'.self s'.w (utf8 (t ++ it.items)))
      (fun s' => (it.boom = true ∧ Rep c s'.self s'.w (utf8 (t ++ it.items))) ∨
        (s'.w.refusals = s.w.refusals + 1 ∧ ∃ p q, it.items = p ++ q ∧
          Rep c s'.self s'.w (utf8 (t ++ p)))) := by
  refine (extendChars_spec hb h hw it hp hr hf).mono ?_ ?_
  · rintro _ s' ⟨h1, h2⟩
    exact ⟨h1, by rw [utf8_append]; exact h2.rep⟩
  · rintro s' (⟨h1, h2⟩ | ⟨p, q, h1, h2⟩)
    · exact .inl ⟨h1, by rw [utf8_append]; exact h2.rep⟩
    · exact .inr ⟨h2.2, p, q, h1, by rw [utf8_append]; exact h2.rep⟩

/-- C50. The same for string slices. -/
theorem C50_extend_strs {s : VSt UInt8} {t : List Char} (hb : Bytes c)
    (h : Rep c s.self s.w (utf8 t)) (hw : s.w.WF) (items : List (List Char)) (hint : Nat)
    (boom : Bool) (hf : c.Fits ((utf8 t).length + (utf8 items.flatten).length)) :
    Sat c (Str.extendStrs c ⟨items.map utf8, hint, boom⟩ s)
      (fun _ s' => boom = false ∧ Rep c s'.self s'.w (utf8 (t ++ items.flatten)))
      (fun s' => (boom = true ∧ Rep c s'.self s'.w (utf8 (t ++ items.flatten))) ∨
        (s'.w.refusals = s.w.refusals + 1 ∧ ∃ p q, items = p ++ q ∧
          Rep c s'.self s'.w (utf8 (t ++ p.flatten)))) := by
  refine (extendStrs_spec hb h hw ⟨items.map utf8, hint, boom⟩
    (by simp only [utf8_flatten]; exact hf)).mono ?_ ?_
  · rintro _ s' ⟨h1, h2⟩
    exact ⟨h1, by rw [utf8_append, ← utf8_flatten]; exact h2.rep⟩
  · rintro s' (⟨h1, h2⟩ | ⟨p, q, h1, h2⟩)
    · exact .inl ⟨h1, by rw [utf8_append, ← utf8_flatten]; exact h2.rep⟩
    · obtain ⟨p', q', e1, rfl⟩ := map_utf8_split h1
      exact .inr ⟨h2.2, p', q', e1, by rw [utf8_append, ← utf8_flatten]; exact h2.rep⟩

/-- C50. Collecting characters, or string slices, into a new string. -/
theorem C50_collect {w : World UInt8} (hb : Bytes c) (hw : w.WF) :
    (∀ it : Iter Char, (∀ ch ∈ it.items, PushOk c ch) → RoomFits c 0 0 it.hint →
      c.Fits (utf8 it.items).length → Sat c (Str.fromChars c it w)
        (fun v w' => it.boom = false ∧ Rep c v w' (utf8 it.items))
        (fun w' => it.boom = true ∨ w'.refusals = w.refusals + 1)) ∧
    (∀ (items : List (List Char)) (hint : Nat) (boom : Bool), c.Fits (utf8 items.flatten).length →
      Sat c (Str.fromStrs c ⟨items.map utf8, hint, boom⟩ w)
        (fun v w' => boom = false ∧ Rep c v w' (utf8 items.flatten))
        (fun w' => boom = true ∨ w'.refusals = w.refusals + 1)) := by
  refine ⟨fun it hp hr hf => ?_, fun items hint boom hf => ?_⟩
  · refine (fromChars_spec hb hw it hp hr hf).mono ?_ ?_
    · rintro v w' ⟨h1, h2⟩; exact ⟨h1, h2.rep⟩
    · rintro w' ⟨(⟨h1, _⟩ | h1), _⟩
      · exact .inl h1
      · exact .inr h1
  · refine (fromStrs_spec hb hw ⟨items.map utf8, hint, boom⟩
      (by simp only [utf8_flatten]; exact hf)).mono ?_ ?_
    · rintro v w' ⟨h1, h2⟩
      exact ⟨h1, by rw [← utf8_flatten]; exact h2.rep⟩
    · rintro w' ⟨(⟨h1, _⟩ | h1), _⟩
      · exact .inl h1
      · exact .inr h1

/-! ## A non-trivial case -/

/-- `u8` on a 64-bit machine, debug build, an allocator that grants everything, where the letter of
the rules for uninitialised memory does not count. -/
def cfgBytes : Cfg UInt8 where
  size := 1
  align := 1
  isizeMax := 2 ^ 63 - 1
  debug := true
  strict := false
  needsDrop := false
  dropPanics := fun _ => false
  zst := 0
  clone := fun _ a => some a
  grant := fun _ _ => true

theorem cfgBytes_bytes : Bytes cfgBytes := ⟨rfl, fun _ => rfl, fun _ _ => rfl⟩

/-- Nothing allocated yet. -/
def worldBytes : World UInt8 := ⟨fun _ => none, 0, 0, 0, fun _ => 0, ⟨[], 0⟩⟩

/-- Keeps everything but `l`. -/
def notL (_ : Nat) (ch : Char) : Option Bool := some (ch != 'l')

/-- The calls of the example. -/
def tprog : List TextCmd :=
  [.new, .on 0 (.pushStr ['h', 'é', 'l', 'l', 'o']), .on 0 (.insert 3 '€'), .on 0 (.insert 2 'x'),
    .on 0 (.remove 1), .on 0 (.retain notL), .fromUtf16 [0x61, 0xd83d, 0xde00], .on 1 .pop,
    .fromUtf16 [0xde00], .fromUtf8 [0xc3], .clone 0, .add 0 1, .extendStrings 2 [1] false,
    .collectStrings [0, 2] false, .on 3 .read, .on 3 .len]

/-- What the client saw, and which strings are left. -/
def tsummary (r : Option (TextHistory × Pool UInt8)) : Option (List TextEvent × List Bool) :=
  r.map fun r => (r.1.map Prod.snd, r.2.vecs.map Option.isSome)

example : tsummary (truns cfgBytes tprog [] ⟨[], worldBytes⟩) = some
    ([.ret .unit, .ret .unit, .ret .unit, .panic, .ret (.char 'é'), .ret .unit, .ret .unit,
      .ret (.opt (some '😀')), .ret .err, .ret .err, .ret .unit, .ret .unit, .ret .unit,
      .ret .unit, .ret (.bytes (utf8 ['h', '€', 'o', 'a', 'h', '€', 'o', 'a'])), .ret (.nat 12)],
     [false, false, false, true]) := by decide +kernel

example : ∃ hist P, TextReaches cfgBytes ⟨[], worldBytes⟩ hist P ∧
    (⟨[], worldBytes⟩ : Pool UInt8).Initial ∧ Bytes cfgBytes ∧ hist.length = 16 := by
  cases h : truns cfgBytes tprog [] ⟨[], worldBytes⟩ with
  | none =>
    have : (truns cfgBytes tprog [] ⟨[], worldBytes⟩).isSome = true := by decide +kernel
    rw [h] at this; cases this
  | some r =>
    have : (truns cfgBytes tprog [] ⟨[], worldBytes⟩).map (fun r => r.1.length) = some 16 := by
      decide +kernel
    rw [h] at this
    exact ⟨r.1, r.2, truns_reaches tprog .start h, ⟨rfl, fun _ => rfl, rfl⟩, cfgBytes_bytes,
      by simpa using this⟩

end Lokky
