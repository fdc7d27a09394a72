import Verif.Proofs.ArcChests
import Verif.Props.Arc
import Verif.Props.Chests

/-!
# C148: `Arc`s in containers of all kinds

`CReaches (arcThings mx) co N0 n ho N`: threads that keep `Arc`s in vectors, small vectors, by-value iterators and boxed slices did `n`
things to the handles, those that containers drop included, saw the history `ho` of the containers and arrived at `N`
(Verif/Model/ArcChests.lean). The steps of `drop`, `get_mut`, `make_mut` and `try_unwrap` interleave in any order.

Missing, because it is false: `retain` and `dedup` lose a handle (C09, C10), and the value is never dropped (`C148_refuted`). As in
C58 to C66 `make_mut` is not refused memory after it has moved a value out.
-/

namespace Lokky
open Spec
variable {α : Type} {co : Cfg Nat} {mx n k : Nat} {ho : Spec.YHistory Nat} {N0 N : Chest (ArcSys α)}

/-- No thread is in the middle of anything. -/
def ArcSys.Idle (s : ArcSys α) : Prop := ∀ x ∈ s.threads, x = none

/-- Nothing is known to be wrong at the start. -/
theorem arcAfter_start : ArcAfter mx 0 (ArcSys.start k : ArcSys α) := by
  refine ⟨0, by omega, ⟨k, .refl⟩, fun h t op ht => ?_⟩
  simp [ArcSys.start, List.getElem?_replicate] at ht

/-- C148. Whatever is called, no handle has two owners: what the client holds and what the containers show are different handles,
and each of them has its value, which was neither dropped nor moved out. -/
theorem C148_once (hso : co.size ≠ 0) (hdo : ∀ a, co.dropPanics a = false) (h0 : N0.Initial (.start k))
    (h : CReaches (arcThings mx) co N0 n ho N) (hn : n ≤ mx / 3) :
    (N.held ++ N.kept co).Nodup ∧ ∀ x ∈ N.held ++ N.kept co, ∃ p o, N.things.hands[x]? = some (some p) ∧
      N.things.objs[p]? = some o ∧ o.alive = true ∧ o.freed = false ∧ o.outs = 0 := by
  obtain ⟨S, left, i⟩ := h.inv arcThings_good arcAfter_start (fun _ => rfl) hso hdo h0 hn
  obtain ⟨a, b⟩ := i.shown hso
  obtain ⟨m, hm, hr, _⟩ := i.good
  refine ⟨(List.nodup_append.mp a).1, fun x hx => ?_⟩
  obtain ⟨p, hp⟩ := isThere_iff.mp ((b x).mp (List.mem_append.mpr (.inl hx)))
  obtain ⟨o, h1, h2⟩ := C58_handle_partial hr (by omega) hp
  exact ⟨p, o, hp, h1, h2 (hr.whole o (List.mem_of_getElem? h1))⟩

/-- C148, the part that holds: without `retain` and `dedup`, every handle that exists has exactly one owner: the client holds it, or it
is one element of one vector, small vector, iterator or boxed slice. -/
theorem C148_owner_partial (hso : co.size ≠ 0) (hdo : ∀ a, co.dropPanics a = false) (h0 : N0.Initial (.start k))
    (h : CReaches (arcThings mx) co N0 n ho N) (hn : n ≤ mx / 3) (hq : ∀ e ∈ ho, ¬ e.1.Scans) :
    (N.held ++ N.kept co).Nodup ∧ ∀ x, x ∈ N.held ++ N.kept co ↔ ∃ p, N.things.hands[x]? = some (some p) := by
  obtain ⟨S, left, i⟩ := h.inv arcThings_good arcAfter_start (fun _ => rfl) hso hdo h0 hn
  obtain ⟨a, b⟩ := i.shown hso
  rw [i.none_left hq, List.append_nil] at a b
  exact ⟨a, fun x => (b x).trans isThere_iff⟩

/-- C148. Threads that keep the handles without containers also get there. -/
theorem C148_history (hso : co.size ≠ 0) (hdo : ∀ a, co.dropPanics a = false) (h0 : N0.Initial (.start k))
    (h : CReaches (arcThings mx) co N0 n ho N) (hn : n ≤ mx / 3) : ∃ m ≤ 3 * n, ArcReaches mx True m N.things := by
  obtain ⟨S, left, i⟩ := h.inv arcThings_good arcAfter_start (fun _ => rfl) hso hdo h0 hn
  obtain ⟨m, hm, hr, _⟩ := i.good
  exact ⟨m, hm, hr⟩

/-- C148. Every permitted call of a container returns or panics, `retain` and `dedup` included; each handle that it drops is there,
and its `drop` begins. -/
theorem C148_safe (hso : co.size ≠ 0) (hdo : ∀ a, co.dropPanics a = false) (h0 : N0.Initial (.start k))
    (h : CReaches (arcThings mx) co N0 n ho N) (hn : n ≤ mx / 3) (cmd : Spec.YCmd Nat) (hl : cmd.Legal co N.boxes) (hp : cmd.Plain)
    (rest : List Nat) (hh : N.held.Perm (cmd.given ++ rest)) :
    (∃ ev Y', YHappens co N.boxes cmd ev Y') ∧ (∀ u, runY co cmd N.boxes ≠ .ub u) ∧
    ∀ ev Y', YHappens co N.boxes cmd ev Y' → n + (droppedIn N.boxes Y').length ≤ mx / 3 →
      ∃ s', (arcThings mx).dropEach (droppedIn N.boxes Y') N.things = .ok () s' := by
  obtain ⟨S, left, i⟩ := h.inv arcThings_good arcAfter_start (fun _ => rfl) hso hdo h0 hn
  obtain ⟨a, b⟩ := C127_safe_partial hso h0.2.1 i.ro hl
  refine ⟨?_, b, fun ev Y' he hb => ?_⟩
  · rcases a with a | ⟨_, a, ha⟩
    · exact a
    · rw [hdo a] at ha; cases ha
  · obtain ⟨P', _, _, k, _⟩ := i.call arcThings_good hso hdo hb hl hp hh he
    exact ⟨P', k⟩

/-- C148. Every step of every call on a handle can be made, those of the `drop`s that containers began included. -/
theorem C148_steps (hso : co.size ≠ 0) (hdo : ∀ a, co.dropPanics a = false) (h0 : N0.Initial (.start k))
    (h : CReaches (arcThings mx) co N0 n ho N) (hn : n < mx / 3) {t : Nat} {op : ArcOp α}
    (ht : N.things.threads[t]? = some (some op)) (ch : ArcChoice α) : ∃ s', Arc.step mx ch t op N.things = .ok () s' := by
  obtain ⟨m, hm, hr⟩ := C148_history hso hdo h0 h (by omega)
  exact C58_calm_partial hr (by omega) ht ch

/-- C148. Whoever has a `&mut T` has it alone: no handle of the value is held or kept in a container. -/
theorem C148_exclusive (hso : co.size ≠ 0) (hdo : ∀ a, co.dropPanics a = false) (h0 : N0.Initial (.start k))
    (h : CReaches (arcThings mx) co N0 n ho N) (hn : n ≤ mx / 3) {t p : Nat}
    (ht : N.things.threads[t]? = some (some (.held p))) : ∀ x ∈ N.held ++ N.kept co, N.things.hands[x]? ≠ some (some p) := by
  obtain ⟨m, hm, hr⟩ := C148_history hso hdo h0 h hn
  obtain ⟨_, _, _, _, _, h1, _⟩ := C61_exclusive hr (by omega) ht
  exact fun x _ => h1 x

/-- C148, the part that holds: without `retain` and `dedup`, while nothing else is going on, `strong_count` of a handle is the
number of handles of its value among those the client holds and those in containers. -/
theorem C148_count_partial (hso : co.size ≠ 0) (hdo : ∀ a, co.dropPanics a = false) (h0 : N0.Initial (.start k))
    (h : CReaches (arcThings mx) co N0 n ho N) (hn : n < mx / 3) (hq : ∀ e ∈ ho, ¬ e.1.Scans) (hi : N.things.Idle)
    {t x p : Nat} (ht : t < N.things.threads.length) (hx : N.things.hands[x]? = some (some p)) (ch : ArcChoice α) :
    Arc.step mx ch t (.count x p) { N.things with threads := N.things.threads.set t (some (.count x p)) } =
      .ok () { N.things with
        log := (t, .nat ((N.held ++ N.kept co).countP fun y => N.things.hands[y]?.getD none == some p)) :: N.things.log } := by
  obtain ⟨nd, ow⟩ := C148_owner_partial hso hdo h0 h (by omega) hq
  obtain ⟨m, hm, ⟨k', hr⟩⟩ := C148_history hso hdo h0 h (by omega)
  have ht0 : N.things.threads[t]? = some none := by
    rw [List.getElem?_eq_getElem ht, hi _ (List.getElem_mem ht)]
  have hr' : ArcReaches mx True (m + 1) { N.things with threads := N.things.threads.set t (some (.count x p)) } :=
    ⟨k', .tail hr (.borrow t (.count x) ht0 rfl hx)⟩
  rw [C66_partial hr' (by omega) (t := t) (i := x) (p := p) (by simp [ht]) ?_ (hr'.whole.not_lost _)]
  · have e : (N.things.threads.set t (some (.count x p))).set t none = N.things.threads := by
      rw [List.set_set]
      refine List.ext_getElem? fun j => ?_
      rw [List.getElem?_set]
      split
      · rename_i e; subst e; rw [ht0]
      · rfl
    have e2 : N.things.hands.count (some p) = (N.held ++ N.kept co).countP fun y => N.things.hands[y]?.getD none == some p := by
      rw [List.count, countP_owned nd (fun y => (ow y).trans isThere_iff.symm) rfl]
    simp only [e, e2]
  · intro t' y hne hy
    rw [List.getElem?_set, if_neg (fun e => hne e.symm)] at hy
    exact hi y (List.mem_of_getElem? hy)

/-- C148, the part that holds: without `retain` and `dedup`, once the containers are gone, the client holds no handle, and all calls
are over, every value was dropped or moved out exactly once, the memory of those that never had a `Weak` was given back (C63), and
so was all memory of the containers. -/
theorem C148_end_partial (hso : co.size ≠ 0) (hdo : ∀ a, co.dropPanics a = false) (h0 : N0.Initial (.start k))
    (h : CReaches (arcThings mx) co N0 n ho N) (hn : n ≤ mx / 3) (hq : ∀ e ∈ ho, ¬ e.1.Scans) (hi : N.things.Idle)
    (hheld : N.held = []) (hv : N.boxes.Empty) :
    (∀ o ∈ N.things.objs, o.alive = false ∧ o.outs = 1 ∧ (o.made = 0 → o.freed = true)) ∧ ∀ p, N.boxes.w.heap p = none := by
  obtain ⟨S, left, i⟩ := h.inv arcThings_good arcAfter_start (fun _ => rfl) hso hdo h0 hn
  obtain ⟨m, hm, hr, _⟩ := i.good
  refine ⟨fun o hmem => ?_, C127_no_leak_partial hso hdo h0.2.1 i.ro hv.1 hv.2.1 hv.2.2⟩
  obtain ⟨p, ho⟩ := List.mem_iff_getElem?.1 hmem
  have hL : N.things.Left p := by
    refine left_of_idle (fun x hx e => ?_) hi
    subst e
    obtain ⟨y, hy⟩ := List.mem_iff_getElem?.1 hx
    have := i.gone hso hheld hv hq y
    rw [show (arcThings mx).alive N.things y = true from isThere_iff.mpr ⟨p, hy⟩] at this
    cases this
  obtain ⟨h1, h2, h3⟩ := C59_partial hr (by omega) ho (hr.whole o hmem)
  have h4 := h2 hL
  exact ⟨by
    cases e : o.alive with
    | false => rfl
    | true => have := h3.1 e; omega, h4, fun hm' => C60_released hr (by omega) ho hm' hL⟩

/-! ## Non-trivial cases -/

/-- A step that does not borrow, or a whole call that borrows. -/
inductive ArcDo where
  | act (a : ArcAct Nat)
  | call (t : Nat) (cmd : ArcCmd Nat) (chs : List (ArcChoice Nat))

/-- Whether the operation borrows a handle. -/
def ArcOp.isLoan {α : Type} : ArcOp α → Bool
  | .clone _ _ | .down _ _ | .down1 _ _ _ | .read _ _ | .count _ _ | .wcount _ _ => true
  | _ => false

/-- `Unlent`, computed. -/
def ArcSys.unlent (s : ArcSys Nat) : Bool := s.threads.all fun x => !(ArcOp.on ArcOp.isLoan x)

theorem ArcSys.unlent_iff {s : ArcSys Nat} (h : s.unlent = true) : s.Unlent := by
  intro h' t op ht
  have := List.all_eq_true.mp h _ (List.mem_of_getElem? ht)
  cases op <;> first | rfl | cases this

/-- Steps of a thread. -/
def arcSteps (mx t : Nat) : List (ArcChoice Nat) → ArcSys Nat → Option (ArcSys Nat)
  | [], s => some s
  | ch :: chs, s => (s.act mx true (.run t ch)).bind (arcSteps mx t chs)

theorem arcSteps_runs {mx t : Nat} {chs : List (ArcChoice Nat)} {s0 s s' : ArcSys Nat} {k : Nat} (h0 : ArcRuns mx t s0 k s)
    (h : arcSteps mx t chs s = some s') : ArcRuns mx t s0 (k + chs.length) s' := by
  induction chs generalizing s k with
  | nil => cases h; exact h0
  | cons ch chs ih =>
    simp only [arcSteps] at h
    obtain ⟨s1, h1, h2⟩ := Option.bind_eq_some_iff.1 h
    have : ArcRuns mx t s0 (k + 1) s1 := by
      simp only [ArcSys.act, Bool.true_and] at h1
      split at h1
      · rename_i op ht
        split at h1
        · cases h1
        · rename_i hl
          split at h1
          · rename_i hs
            cases h1
            exact .tail ch h0 ht hs fun e => hl ((loses_iff ch op).2 e)
          · cases h1
      · cases h1
    have := ih this h2
    simpa [Nat.add_assoc, Nat.add_comm 1] using this

/-- `ArcUse`, computed. -/
def arcDo : ArcDo → ArcSys Nat → Option (ArcSys Nat)
  | .act a, s => match s.act arcMax true a with
    | some s' => if s'.unlent then some s' else none
    | none => none
  | .call t cmd chs, s => match s.threads[t]?, cmd.borrows with
    | some none, some (h, f) => match s.hands[h]? with
      | some (some p) =>
        match arcSteps arcMax t chs { s with threads := s.threads.set t (some (f p)) } with
        | some s' => if chs.length ≤ 2 ∧ s'.unlent = true then some s' else none
        | none => none
      | _ => none
    | _, _ => none

theorem arcDo_use {d : ArcDo} {s s' : ArcSys Nat} (h : arcDo d s = some s') : (arcThings arcMax).use s s' := by
  cases d with
  | act a =>
    simp only [arcDo] at h
    split at h
    · rename_i h1
      split at h
      · rename_i h2
        cases h
        exact .step (by simpa using ArcSys.act_step h1) (ArcSys.unlent_iff h2)
      · cases h
    · cases h
  | call t cmd chs =>
    simp only [arcDo] at h
    split at h
    · rename_i h1 h2
      split at h
      · rename_i h3
        split at h
        · rename_i h4
          split at h
          · rename_i h5
            cases h
            have := arcSteps_runs .refl h4
            exact .call t cmd h1 h2 h3 (by simpa using h5.1) this (ArcSys.unlent_iff h5.2)
          · cases h
        · cases h
      · cases h
    · cases h

/-- Two threads, and nothing made yet. -/
def arcChest0 : Chest (ArcSys Nat) := ⟨.start 2, ypool0, []⟩

theorem arcChest0_initial : arcChest0.Initial (.start 2) := ⟨rfl, ypool0_initial, rfl⟩

/-- Handles 0, 1 and 2 of the value 7 go into a small vector, which becomes a vector. Handle 3 of the value 8 is taken by
`make_mut` on thread 1, which gets a `&mut T`. The vector is truncated: `drop`s of handles 1 and 2 begin, and have not got anywhere. -/
def arcChestProg : List (ChestCmd ArcDo) :=
  [.use (.act (.new 0 7)), .use (.call 0 (.clone 0) [{}]), .use (.call 1 (.clone 0) [{}]), .use (.act (.new 1 8)),
    .call (.small (.new 2)), .call (.small (.on 0 (.push 0))), .call (.small (.on 0 (.push 1))), .call (.small (.on 0 (.push 2))),
    .use (.act (.call 1 (.makeMut 3))), .use (.act (.run 1 {})), .call (.intoVec 0), .use (.act (.run 1 {})),
    .use (.call 0 (.read 1) [{}]), .call (.vec (.call (.on 0 (.truncate 1))))]

/-- The rest: the `drop`s go on, one after a step of the other; the vector becomes a boxed slice and is dropped; thread 1
lets go, and drops its handle. -/
def arcChestRest : List (ChestCmd ArcDo) :=
  [.use (.act (.run 3 {})), .use (.act (.run 2 {})), .call (.vec (.intoBoxed 0)), .call (.vec (.dropBox 0)), .use (.act (.run 1 {})),
    .use (.act (.call 1 (.drop 4)))] ++ List.replicate 4 (.use (.act (.run 1 {}))) ++ List.replicate 4 (.use (.act (.run 4 {})))

/-- What the client holds, what the containers show, the handles and the threads. -/
def arcChestSummary (r : Option (Nat × Chest (ArcSys Nat))) :
    Option (Nat × List Nat × List Nat × List (Option Nat) × List (Option (ArcOp Nat))) :=
  r.map fun r => (r.1, r.2.held, r.2.kept cfg64, r.2.things.hands, r.2.things.threads)

set_option synthInstance.maxSize 1000 in
example : ∃ n ho N, CReaches (arcThings arcMax) cfg64 arcChest0 n ho N ∧ arcChest0.Initial (.start 2) ∧ n < arcMax / 3 ∧
    (∀ e ∈ ho, ¬ e.1.Scans) ∧ N.held = [] ∧ N.kept cfg64 = [0] ∧ N.things.hands = [some 0, none, none, none] ∧
    N.things.threads = [none, some (.held 1), some (.drop0 0), some (.drop0 0)] := by
  have hsum : arcChestSummary (chestAll (arcThings arcMax) arcDo cfg64 arcChestProg 0 arcChest0) =
      some (10, [], [0], [some 0, none, none, none], [none, some (.held 1), some (.drop0 0), some (.drop0 0)]) := by decide +kernel
  cases h : chestAll (arcThings arcMax) arcDo cfg64 arcChestProg 0 arcChest0 with
  | none => rw [h] at hsum; cases hsum
  | some r =>
    rw [h] at hsum
    simp only [arcChestSummary, Option.map_some, Option.some.injEq, Prod.mk.injEq] at hsum
    obtain ⟨ho, hr, e⟩ := chestAll_reaches arcDo_use (fun h => isThere_lt h) arcChestProg .start h
    exact ⟨_, _, _, hr, arcChest0_initial, by rw [hsum.1]; decide, noScans_iff (by rw [List.nil_append, e]; rfl), hsum.2⟩

set_option synthInstance.maxSize 1000 in
/-- In the end both values were dropped once, and their memory is gone. -/
example : (chestAll (arcThings arcMax) arcDo cfg64 (arcChestProg ++ arcChestRest) 0 arcChest0).map (fun r =>
    (r.2.held, r.2.kept cfg64, r.2.things.hands, r.2.things.threads, r.2.things.objs.map fun o => (o.outs, o.freed))) =
    some ([], [], [none, none, none, none, none], [none, none, none, none, none], [(1, true), (1, true)]) := by
  decide +kernel

/-! ## What is missing -/

/-- Two handles of one value are stored in a vector; `retain(|_| true)` loses the second; the vector is dropped. -/
def arcLossProg : List (ChestCmd ArcDo) :=
  [.use (.act (.new 0 7)), .use (.call 0 (.clone 0) [{}]), .call (.vec (.call (.fromArray [0, 1]))),
    .call (.vec (.retain 0 fun _ _ => some true)), .call (.vec (.call (.drop 0))), .use (.act (.run 2 {}))]

set_option synthInstance.maxSize 1000 in
/-- C148 is false with `retain`: a program that has dropped everything it had, and all of whose calls are over, leaves a handle that
nobody owns: the value is never dropped and its memory is never given back. -/
theorem C148_refuted : ∃ n ho N, CReaches (arcThings arcMax) cfg64 arcChest0 n ho N ∧ n ≤ arcMax / 3 ∧ N.things.Idle ∧ N.held = [] ∧
    N.boxes.Empty ∧ N.things.hands = [none, some 0] ∧ N.things.objs = [⟨1, 0, 7, true, 0, 0, false, 0, 0, false⟩] := by
  have hsum : (chestAll (arcThings arcMax) arcDo cfg64 arcLossProg 0 arcChest0).map (fun r =>
      (r.1, r.2.things.threads, r.2.held, r.2.things.hands, r.2.things.objs)) =
      some (4, [none, none, none], [], [none, some 0], [⟨1, 0, 7, true, 0, 0, false, 0, 0, false⟩]) := by
    decide +kernel
  have hsum2 : (chestAll (arcThings arcMax) arcDo cfg64 arcLossProg 0 arcChest0).map (fun r =>
      (r.2.boxes.x.pool.vecs.map Option.isSome, r.2.boxes.smalls.map Option.isSome, (r.2.boxes.x.objs 0).isSome)) =
      some ([false], [false], false) := by
    decide +kernel
  cases h : chestAll (arcThings arcMax) arcDo cfg64 arcLossProg 0 arcChest0 with
  | none => rw [h] at hsum; cases hsum
  | some r =>
    rw [h] at hsum hsum2
    simp only [Option.map_some, Option.some.injEq, Prod.mk.injEq] at hsum hsum2
    obtain ⟨h1, h2, h3, h4, h5⟩ := hsum
    obtain ⟨ho, hr, e⟩ := chestAll_reaches arcDo_use (fun h => isThere_lt h) arcLossProg .start h
    have none_in : ∀ {β : Type} {l : List (Option β)}, l.map Option.isSome = [false] →
        ∀ (x : Nat) v, l[x]? ≠ some (some v) := by
      intro β l hl x v hx
      have : (l.map Option.isSome)[x]? = some true := by rw [List.getElem?_map, hx]; rfl
      rw [hl] at this
      cases x <;> simp at this
    have hobj : ∀ x, r.2.boxes.x.objs x = none := by
      obtain ⟨S, left, i⟩ := hr.inv arcThings_good arcAfter_start (fun _ => rfl) (by decide) (fun _ => rfl) arcChest0_initial
        (by rw [h1]; decide)
      obtain ⟨lost, G, K, po⟩ := i.po
      intro x
      cases ho : r.2.boxes.x.objs x with
      | none => rfl
      | some o =>
        have hlt := (List.getElem?_eq_some_iff.mp (po.x.obj x o ho).1).1
        have : r.2.boxes.x.pool.vecs.length = 1 := by
          have := congrArg List.length hsum2.1
          rwa [List.length_map] at this
        have : x = 0 := by omega
        subst this
        rw [ho] at hsum2
        exact absurd hsum2.2.2 (by simp)
    refine ⟨_, _, _, hr, by rw [h1]; decide, fun x hx => ?_, h3, ⟨none_in hsum2.1, none_in hsum2.2.1, hobj⟩, h4, h5⟩
    rw [h2] at hx
    simpa using hx

end Lokky
