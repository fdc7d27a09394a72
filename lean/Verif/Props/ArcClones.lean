import Verif.Proofs.ArcClones
import Verif.Props.ArcChests
import Verif.Props.HandleClones

/-!
# C149: cloning vectors of `Arc`s

`KReaches (arcClonables mx) co N0 n N`: threads that keep `Arc`s in vectors, clone those vectors, extend them from slices and resize
them, did `n` things to the handles, clones and drops by vectors included, and arrived at `N` (Verif/Model/ArcClones.lean). As in
C58 to C66 `make_mut` is not refused memory after it has moved a value out.
-/

namespace Lokky
open Spec
variable {α : Type} {co : Cfg Nat} {mx n k : Nat} {N0 N : Shelf (ArcSys α)}

/-- C149. Every vector can be read, and every handle that exists has exactly one owner: the client holds it, or it is one element of
one vector. -/
theorem C149_owner (hso : co.size ≠ 0) (hdo : ∀ a, co.dropPanics a = false) (h0 : N0.Initial (.start k))
    (h : KReaches (arcClonables mx) co N0 n N) (hn : n ≤ mx / 3) :
    (∀ (x : Nat) (v : VecH), N.vecs.vecs[x]? = some (some v) →
      ∃ l, Vec.asSlice co ⟨v, N.vecs.w⟩ = .ok l ⟨v, N.vecs.w⟩) ∧
    (N.held ++ N.kept co).Nodup ∧
    ∀ x, x ∈ N.held ++ N.kept co ↔ ∃ p, N.things.hands[x]? = some (some p) := by
  obtain ⟨L, i⟩ := h.inv arcClonables_good arcAfter_start (fun _ => rfl) hso hdo h0 hn
  rw [i.kept_eq hso]
  refine ⟨fun x v hv => ?_, i.nodup, fun x => (i.owned x).trans isThere_iff⟩
  obtain ⟨l, _, e⟩ := i.shows hso hv
  exact ⟨l, e⟩

/-- C149. Threads that keep and clone the handles without vectors also get there, so what is proved of those (C58 to C66) holds. -/
theorem C149_history (hso : co.size ≠ 0) (hdo : ∀ a, co.dropPanics a = false) (h0 : N0.Initial (.start k))
    (h : KReaches (arcClonables mx) co N0 n N) (hn : n ≤ mx / 3) : ∃ m ≤ 3 * n, ArcReaches mx True m N.things := by
  obtain ⟨L, i⟩ := h.inv arcClonables_good arcAfter_start (fun _ => rfl) hso hdo h0 hn
  obtain ⟨m, hm, hr, _⟩ := i.good
  exact ⟨m, hm, hr⟩

/-- C149. Every handle that is held or kept has its value, which was neither dropped nor moved out. -/
theorem C149_alive (hso : co.size ≠ 0) (hdo : ∀ a, co.dropPanics a = false) (h0 : N0.Initial (.start k))
    (h : KReaches (arcClonables mx) co N0 n N) (hn : n ≤ mx / 3) : ∀ x ∈ N.held ++ N.kept co, ∃ p o,
      N.things.hands[x]? = some (some p) ∧ N.things.objs[p]? = some o ∧ o.alive = true ∧ o.freed = false ∧ o.outs = 0 := by
  intro x hx
  obtain ⟨m, hm, hr⟩ := C149_history hso hdo h0 h hn
  obtain ⟨p, hp⟩ := ((C149_owner hso hdo h0 h hn).2.2 x).mp hx
  obtain ⟨o, h1, h2⟩ := C58_handle_partial hr (by omega) hp
  exact ⟨p, o, hp, h1, h2 (hr.whole o (List.mem_of_getElem? h1))⟩

/-- C149. Every permitted call of a vector returns or panics. -/
theorem C149_safe (hso : co.size ≠ 0) (hdo : ∀ a, co.dropPanics a = false) (h0 : N0.Initial (.start k))
    (h : KReaches (arcClonables mx) co N0 n N) (hn : n ≤ mx / 3)
    {cmd : Spec.Cmd Nat} {rest : List Nat} (hm : N.May (arcClonables mx) co cmd rest) :
    (∃ ev O', N.Calls (arcClonables mx) co cmd ev O') ∧
    ∀ u, runCmd ((arcClonables mx).during co (N.sources co cmd) N.things N.vecs.w.log.calls) cmd N.vecs ≠ .ub u := by
  obtain ⟨L, i⟩ := h.inv arcClonables_good arcAfter_start (fun _ => rfl) hso hdo h0 hn
  exact i.calls hso hdo hm

theorem ArcSys.shows_iff {s : ArcSys α} {x p : Nat} {v : Option α} :
    s.shows x = some (p, v) ↔ s.hands[x]? = some (some p) ∧ s.objs[p]?.map (·.val) = v := by
  unfold ArcSys.shows
  constructor
  · intro h
    obtain ⟨q, hq, e⟩ := Option.map_eq_some_iff.mp h
    cases e
    exact ⟨handAt_iff.mp hq, rfl⟩
  · rintro ⟨h1, rfl⟩
    rw [handAt_iff.mpr h1]; rfl

/-- C149. What a permitted call of a vector does. Its clones and the destructors of what it drops all find their handle. The vectors
change as the specification of vectors says, where a clone is a new handle of the same object as its source, which has the same
value as before, and no clone panics. Every handle that was there is still the same, with the same value, until its destructor begins,
and the others stay. -/
theorem C149_calls (hso : co.size ≠ 0) (hdo : ∀ a, co.dropPanics a = false) (h0 : N0.Initial (.start k))
    (h : KReaches (arcClonables mx) co N0 n N)
    {cmd : Spec.Cmd Nat} {rest : List Nat} (hm : N.May (arcClonables mx) co cmd rest)
    {ev : Spec.Event Nat} {O' : Pool Nat} (he : N.Calls (arcClonables mx) co cmd ev O')
    (hn : n + (N.sources co cmd).length ≤ mx / 3)
    (hb : n + (N.cloned co cmd O').length + (droppedBy N.vecs O').length ≤ mx / 3) :
    ∃ s1 s' made, (arcClonables mx).afterClones (N.cloned co cmd O') N.things = some s1 ∧
      (arcClonables mx).dropEach (droppedBy N.vecs O') s1 = .ok () s' ∧
      Spec.Step (fun a r => match r with
          | some y => (∀ p, N.things.hands[y]? ≠ some (some p)) ∧
              ∃ p, N.things.hands[a]? = some (some p) ∧ s1.hands[y]? = some (some p) ∧
                s1.objs[p]?.map (·.val) = N.things.objs[p]?.map (·.val)
          | none => False) cmd ev (N.vecs.lists co) (O'.lists co) made (droppedBy N.vecs O') ∧
      made.Nodup ∧
      (∀ (y p : Nat), N.things.hands[y]? = some (some p) → s1.hands[y]? = some (some p) ∧
        s1.objs[p]?.map (·.val) = N.things.objs[p]?.map (·.val)) ∧
      (∀ (y p : Nat), s1.hands[y]? = some (some p) → N.things.hands[y]? = some (some p) ∨ y ∈ made) ∧
      ∀ (y p : Nat), s'.hands[y]? = some (some p) ↔ s1.hands[y]? = some (some p) ∧ y ∉ droppedBy N.vecs O' := by
  obtain ⟨L, i⟩ := h.inv arcClonables_good arcAfter_start (fun _ => rfl) hso hdo h0 (by omega)
  obtain ⟨s1, s', made, a1, a2, a3, a4, a5, a6, a7⟩ := i.does
    (cl := fun s1 a r => match r with
          | some y => (∀ p, N.things.hands[y]? ≠ some (some p)) ∧
              ∃ p, N.things.hands[a]? = some (some p) ∧ s1.hands[y]? = some (some p) ∧
                s1.objs[p]?.map (·.val) = N.things.objs[p]?.map (·.val)
          | none => False) arcClonables_good hso hdo (by omega) (fun _ => by omega) hm he
    (fun s1 a y h1 h2 h3 => by
      obtain ⟨p, hp⟩ := isThere_iff.mp h2
      rw [ArcSys.shows_iff.mpr ⟨hp, rfl⟩] at h3
      obtain ⟨b1, b2⟩ := ArcSys.shows_iff.mp h3.symm
      exact ⟨not_there h1, p, b1, hp, b2.symm⟩)
    (fun _ _ h => h)
  refine ⟨s1, s', made, a1, a2, a3, a4, fun y p hy => ?_, fun y p hy => ?_, fun y p => ⟨fun hy => ?_, fun ⟨hy, hd⟩ => ?_⟩⟩
  · have e := (a5 y (isThere_iff.mpr ⟨p, hy⟩)).2
    rw [ArcSys.shows_iff.mpr ⟨hy, rfl⟩] at e
    exact ArcSys.shows_iff.mp e
  · rcases (a6 y).mp (isThere_iff.mpr ⟨p, hy⟩) with h | h
    · have e := (a5 y h).2
      rw [ArcSys.shows_iff.mpr ⟨hy, rfl⟩] at e
      exact .inl (ArcSys.shows_iff.mp e.symm).1
    · exact .inr h
  · have ht := isThere_iff.mpr ⟨p, hy⟩
    have e := (a7 y).2 ht
    rw [ArcSys.shows_iff.mpr ⟨hy, rfl⟩] at e
    exact ⟨(ArcSys.shows_iff.mp e.symm).1, ((a7 y).1.mp ht).2⟩
  · have ht := (a7 y).1.mpr ⟨isThere_iff.mpr ⟨p, hy⟩, hd⟩
    have e := (a7 y).2 ht
    rw [ArcSys.shows_iff.mpr ⟨hy, rfl⟩] at e
    exact (ArcSys.shows_iff.mp e).1

/-- C149: `clone` of a vector of `Arc`s. It returns a vector whose `i`-th element is a new handle of the same object as the `i`-th
element of the original, the vectors that were there and their handles stay as they are; or memory is refused, it panics, and
nothing changed. -/
theorem C149_clone (hso : co.size ≠ 0) (hdo : ∀ a, co.dropPanics a = false) (h0 : N0.Initial (.start k))
    (h : KReaches (arcClonables mx) co N0 n N)
    {x : Nat} {l rest : List Nat} (hm : N.May (arcClonables mx) co (.clone x) rest)
    (hx : (N.vecs.lists co)[x]? = some (some l)) (hn : n + l.length ≤ mx / 3)
    {ev : Spec.Event Nat} {O' : Pool Nat} (he : N.Calls (arcClonables mx) co (.clone x) ev O')
    (hb : n + (N.cloned co (.clone x) O').length + (droppedBy N.vecs O').length ≤ mx / 3) :
    ∃ s', (arcClonables mx).afterClones (N.cloned co (.clone x) O') N.things = some s' ∧
      (∀ (y p : Nat), N.things.hands[y]? = some (some p) → s'.hands[y]? = some (some p) ∧
        s'.objs[p]?.map (·.val) = N.things.objs[p]?.map (·.val)) ∧
      ((ev = .ret .unit ∧ ∃ l', O'.lists co = N.vecs.lists co ++ [some l'] ∧ l'.length = l.length ∧ l'.Nodup ∧
          ∀ (i a b : Nat), l[i]? = some a → l'[i]? = some b → (∀ p, N.things.hands[b]? ≠ some (some p)) ∧
            ∃ p, N.things.hands[a]? = some (some p) ∧ s'.hands[b]? = some (some p)) ∨
        (ev = .refuse ∧ O'.lists co = N.vecs.lists co ∧
          ∀ (y p : Nat), s'.hands[y]? = some (some p) → N.things.hands[y]? = some (some p))) := by
  have hsrc : N.sources co (.clone x) = l := by simp only [Shelf.sources, Spec.Cmd.sources, hx]
  obtain ⟨s1, s', made, a1, -, a3, a4, a5, a6, -⟩ := C149_calls hso hdo h0 h hm he (by rw [hsrc]; omega) hb
  refine ⟨s1, a1, a5, ?_⟩
  generalize droppedBy N.vecs O' = dr at a3
  generalize hO : O'.lists co = L' at a3 ⊢
  generalize hL : N.vecs.lists co = L at a3 hx ⊢
  cases a3 with
  | clone _ l1 ys _ hL1 hcs =>
    rw [hx] at hL1
    cases hL1
    refine .inl ⟨rfl, made, rfl, hcs.length.symm, a4, fun i a b ha hb => ?_⟩
    obtain ⟨b1, p, b2, b3, -⟩ := hcs.get i ha hb
    exact ⟨b1, p, b2, b3⟩
  | cloneRefused =>
    refine .inr ⟨rfl, rfl, fun y k hy => (a6 y k hy).resolve_right (by simp)⟩
  | clonePanic _ pre a post ys _ hL1 hcs hno => exact hno.elim

/-- C149. While nothing else is going on, `strong_count` of a handle is the number of handles of its value among those the client holds
and those in vectors, clones included. -/
theorem C149_count (hso : co.size ≠ 0) (hdo : ∀ a, co.dropPanics a = false) (h0 : N0.Initial (.start k))
    (h : KReaches (arcClonables mx) co N0 n N) (hn : n < mx / 3) (hi : N.things.Idle)
    {t x p : Nat} (ht : t < N.things.threads.length) (hx : N.things.hands[x]? = some (some p)) (ch : ArcChoice α) :
    Arc.step mx ch t (.count x p) { N.things with threads := N.things.threads.set t (some (.count x p)) } =
      .ok () { N.things with
        log := (t, .nat ((N.held ++ N.kept co).countP fun y => N.things.hands[y]?.getD none == some p)) :: N.things.log } := by
  obtain ⟨_, nd, ow⟩ := C149_owner hso hdo h0 h (by omega)
  obtain ⟨m, hm, ⟨k', hr⟩⟩ := C149_history hso hdo h0 h (by omega)
  have ht0 : N.things.threads[t]? = some none := by
    rw [List.getElem?_eq_getElem ht, hi _ (List.getElem_mem ht)]
  have hr' : ArcReaches mx True (m + 1) { N.things with threads := N.things.threads.set t (some (.count x p)) } :=
    ⟨k', .tail hr (.borrow t (.count x) ht0 rfl hx)⟩
  rw [C66_partial hr' (by omega) (t := t) (i := x) (p := p) (by simp [ht]) ?_ (hr'.whole.not_lost _)]
  · have e : (N.things.threads.set t (some (.count x p))).set t none = N.things.threads := by
      rw [List.set_set]
      refine List.ext_getElem? fun j => ?_
      rw [List.getElem?_set]
      split
      · rename_i e; subst e; rw [ht0]
      · rfl
    have e2 : N.things.hands.count (some p) = (N.held ++ N.kept co).countP fun y => N.things.hands[y]?.getD none == some p := by
      rw [List.count, countP_owned nd (fun y => (ow y).trans isThere_iff.symm) rfl]
    simp only [e, e2]
  · intro t' y hne hy
    rw [List.getElem?_set, if_neg (fun e => hne e.symm)] at hy
    exact hi y (List.mem_of_getElem? hy)

/-- C149. Once the vectors are gone, the client holds no handle, and all calls are over, every value was dropped or moved out exactly
once, the memory of those that never had a `Weak` was given back (C63), and so was all memory of the vectors. -/
theorem C149_end (hso : co.size ≠ 0) (hdo : ∀ a, co.dropPanics a = false) (h0 : N0.Initial (.start k))
    (h : KReaches (arcClonables mx) co N0 n N) (hn : n ≤ mx / 3) (hi : N.things.Idle)
    (hheld : N.held = []) (hv : ∀ x, ¬ N.vecs.Alive x) :
    (∀ o ∈ N.things.objs, o.alive = false ∧ o.outs = 1 ∧ (o.made = 0 → o.freed = true)) ∧ ∀ p, N.vecs.w.heap p = none := by
  obtain ⟨L, i⟩ := h.inv arcClonables_good arcAfter_start (fun _ => rfl) hso hdo h0 hn
  obtain ⟨m, hm, hr, _⟩ := i.good
  obtain ⟨hg, hw⟩ := i.gone hheld hv
  refine ⟨fun o hmem => ?_, hw⟩
  obtain ⟨p, ho⟩ := List.mem_iff_getElem?.1 hmem
  have hL : N.things.Left p := by
    refine left_of_idle (fun x hx e => ?_) hi
    subst e
    obtain ⟨y, hy⟩ := List.mem_iff_getElem?.1 hx
    exact not_there (hg y) p hy
  obtain ⟨h1, h2, h3⟩ := C59_partial hr (by omega) ho (hr.whole o hmem)
  have h4 := h2 hL
  exact ⟨by
    cases e : o.alive with
    | false => rfl
    | true => have := h3.1 e; omega, h4, fun hm' => C60_released hr (by omega) ho hm' hL⟩

/-! ## Non-trivial cases -/

/-- Two threads, and nothing made yet. -/
def arcShelf0 : Shelf (ArcSys Nat) := ⟨.start 2, ⟨[], world0⟩, []⟩

theorem arcShelf0_initial : arcShelf0.Initial (.start 2) := ⟨rfl, ⟨rfl, fun _ => rfl, rfl⟩, rfl⟩

/-- Handles 0 of the value 7 and 1 of the value 8 go into a vector, which is cloned (2, 3). Thread 1 begins `make_mut` on a clone (4)
of handle 0. The first vector is extended by a clone (5) of handle 1, the second resized by a clone (7) of a new handle (6). The
first vector is dropped: `drop`s of handles 0, 1 and 5 begin. -/
def arcKeepProg : List (ShelfCmd ArcDo) :=
  [.use (.act (.new 0 7)), .use (.act (.new 1 8)), .vec .new, .vec (.on 0 (.push 0)), .vec (.on 0 (.push 1)), .vec (.clone 0),
    .use (.call 1 (.clone 0) [{}]), .use (.act (.call 1 (.makeMut 4))), .vec (.on 0 (.extendFromSlice [1])),
    .use (.act (.run 1 {})), .use (.call 0 (.clone 3) [{}]), .vec (.on 1 (.resize 4 6)), .vec (.drop 0)]

/-- What the client holds, what the vectors show, the handles and the strong counts. -/
def arcKeepSummary (r : Option (Nat × Shelf (ArcSys Nat))) : Option (Nat × List Nat × List Nat × List (Option Nat) × List Nat) :=
  r.map fun r => (r.1, r.2.held, r.2.kept cfg64, r.2.things.hands, r.2.things.objs.map (·.strong))

set_option synthInstance.maxSize 1000 in
example : arcKeepSummary (keepAll (arcClonables arcMax) arcDo cfg64 (arcKeepProg.take 12) 0 arcShelf0) =
    some (10, [], [0, 1, 5, 2, 3, 7, 6], [some 0, some 1, some 0, some 1, none, some 1, some 1, some 1], [3, 5]) := by
  decide +kernel

set_option synthInstance.maxSize 1000 in
example : ∃ n N, KReaches (arcClonables arcMax) cfg64 arcShelf0 n N ∧ arcShelf0.Initial (.start 2) ∧ n ≤ arcMax / 3 ∧ N.held = [] ∧
    N.kept cfg64 = [2, 3, 7, 6] ∧ N.things.hands = [none, none, some 0, some 1, none, none, some 1, some 1] := by
  have hsum : arcKeepSummary (keepAll (arcClonables arcMax) arcDo cfg64 arcKeepProg 0 arcShelf0) =
      some (13, [], [2, 3, 7, 6], [none, none, some 0, some 1, none, none, some 1, some 1], [3, 5]) := by decide +kernel
  cases h : keepAll (arcClonables arcMax) arcDo cfg64 arcKeepProg 0 arcShelf0 with
  | none => rw [h] at hsum; cases hsum
  | some r =>
    rw [h] at hsum
    simp only [arcKeepSummary, Option.map_some, Option.some.injEq, Prod.mk.injEq] at hsum
    have hr := keepAll_reaches (K := arcClonables arcMax) arcDo_use (fun h => isThere_lt h) arcKeepProg .start h
    exact ⟨_, _, hr, arcShelf0_initial, by rw [hsum.1]; decide, hsum.2.1, hsum.2.2.1, hsum.2.2.2.1⟩

end Lokky
