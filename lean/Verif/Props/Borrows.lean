import Verif.Proofs.BorrowsVec

/-!
# C138: calls on a vector keep to the aliasing rules of Rust

"A program that only makes safe calls on a `Vec` never uses a pointer that Stacked Borrows does
not allow it to use." Refuted: `push` does, always, and so do most functions that move elements.
The calls that keep to the rules are the subject of the `_partial` theorems.
-/

open Lokky.Alias

namespace Lokky.SB

/-- The states in which a program that kept to the rules so far can have a vector. -/
def Reached (dbg : Bool) (g : Prog St) : Prop :=
  ∃ cap len cs, len ≤ cap ∧ (Prog.start (σ := St) cap len).run dbg cs = some g

theorem Reached.pinv {dbg : Bool} {g : Prog St} (h : Reached dbg g) : PInv g := by
  obtain ⟨cap, len, cs, hl, e⟩ := h
  obtain ⟨g', e', h'⟩ := (pinv_start cap len hl).run dbg cs
  rw [e] at e'
  cases e'
  exact h'

/-- A program that reads, indexes, pops, clears, truncates, inserts at the end, removes at the end
and reallocates, in any order, and uses the references it gets as long as the borrow checker lets
it, keeps to the rules. -/
theorem C138_calls_partial (dbg : Bool) (cap len : Nat) (h : len ≤ cap) (cs : List Call) :
    ∃ g, (Prog.start (σ := St) cap len).run dbg cs = some g := by
  obtain ⟨g, e, _⟩ := (pinv_start cap len h).run dbg cs
  exact ⟨g, e⟩

/-- Dropping the vector keeps to the rules. -/
theorem C138_drop_partial (dbg : Bool) (g : Prog St) (h : Reached dbg g) :
    (dropVec g.cap g.len g.st).isSome = true := by
  obtain ⟨s, e, _⟩ := h.pinv.inv.dropVec h.pinv.len
  rw [e]; rfl

/-- Taking the elements of an `IntoIter` and looking at the rest keeps to the rules, and the
slices can be used in full. -/
theorem C138_into_iter_partial (dbg : Bool) (g : Prog St) (h : Reached dbg g) (i : Nat) :
    (i < g.len → (intoNext g.cap g.len i g.st).isSome = true) ∧
    (∃ t s, intoSlice g.cap g.len i g.st = some (t, s) ∧
      (Mach.readAt t i (g.len - i) s).isSome = true) ∧
    ∃ t s, intoSliceMut g.cap g.len i g.st = some (t, s) ∧
      (Mach.writeAt t i (g.len - i) s).isSome = true := by
  refine ⟨fun hi => ?_, ?_, ?_⟩
  · obtain ⟨s, e, _⟩ := h.pinv.inv.intoNext h.pinv.len hi
    rw [e]; rfl
  · obtain ⟨t, s, e, hs, hc⟩ := h.pinv.inv.intoSlice (i := i) h.pinv.len
    obtain ⟨s', e', _⟩ := hs.readAt (t := t) (lo := i) (n := g.len - i)
      fun j hl hu => hc j hl (by omega)
    exact ⟨t, s, e, by rw [e']; rfl⟩
  · obtain ⟨t, s, e, hs, hc⟩ := h.pinv.inv.intoSliceMut (i := i) h.pinv.len
    obtain ⟨s', e', _⟩ := hs.writeAt (t := t) (lo := i) (n := g.len - i)
      fun j hl hu => hc j hl (by omega)
    exact ⟨t, s, e, by rw [e']; rfl⟩

/-- `retain` keeps to the rules if and only if it moves no element: the closure refuses all the
elements it is asked about, except possibly the first. -/
theorem C138_retain_partial (dbg : Bool) (g : Prog St) (h : Reached dbg g) (h0 : 0 < g.len)
    (keep : Nat → Bool) :
    (retain dbg g.cap g.len keep g.st).isSome = true ↔
      ∀ i, (if keep 0 then 2 else 1) ≤ i → i < g.len → keep i = false := by
  obtain ⟨t, s1, s2, e1, e2, h2⟩ := h.pinv.inv.peek h.pinv.len (i := 0) h0
  obtain ⟨s3, e3, h3, _⟩ := h2.setLen dbg
  have hl := h.pinv.len
  simp only [retain]
  rw [bind_some e1, bind_some e2, bind_some e3]
  cases hk : keep 0 with
  | true =>
    rw [if_pos rfl, if_pos rfl]
    by_cases hlen : 2 ≤ g.len
    · obtain ⟨i1, i2⟩ := h3.retainLoop dbg (keep := keep) hl (n := g.len - 2) (read := 2)
        (write := 1) (by omega) (by omega)
      constructor
      · intro hs i h1 h2
        cases hi : keep i with
        | false => rfl
        | true =>
          rw [i1 ⟨i, h1, by omega, hi⟩] at hs
          cases hs
      · intro hall
        obtain ⟨s', e', _⟩ := i2 fun i h1 h2 => hall i h1 (by omega)
        rw [e']; rfl
    · have : g.len - 2 = 0 := by omega
      rw [this]
      exact ⟨fun _ i _ _ => by omega, fun _ => rfl⟩
  | false =>
    obtain ⟨s4, e4, h4⟩ := h3.discardNext hl (read := 0) h0
    rw [if_neg (by simp), if_neg (by simp), bind_some e4]
    obtain ⟨i1, i2⟩ := h4.retainLoop dbg (keep := keep) hl (n := g.len - 1) (read := 1)
      (write := 0) (by omega) (by omega)
    constructor
    · intro hs i h1 h2
      cases hi : keep i with
      | false => rfl
      | true =>
        rw [i1 ⟨i, h1, by omega, hi⟩] at hs
        cases hs
    · intro hall
      obtain ⟨s', e', _⟩ := i2 fun i h1 h2 => hall i h1 (by omega)
      rw [e']; rfl

/-- `dedup_by_key` keeps to the rules if and only if it keeps none of the elements it looks at. -/
theorem C138_dedup_key_partial (dbg : Bool) (g : Prog St) (h : Reached dbg g) (h0 : 0 < g.len)
    (same : Nat → Bool) :
    (dedupKey dbg g.cap g.len same g.st).isSome = true ↔
      ∀ i, 2 ≤ i → i < g.len → same i = true := by
  obtain ⟨t, s1, s2, e1, e2, h2⟩ := h.pinv.inv.peekMut h.pinv.len (i := 0) h0
  obtain ⟨s3, e3, h3, _⟩ := h2.setLen dbg
  have hl := h.pinv.len
  simp only [dedupKey]
  rw [bind_some e1, bind_some e2, bind_some e3]
  by_cases hlen : 2 ≤ g.len
  · obtain ⟨i1, i2⟩ := h3.dedupKeyLoop dbg (same := same) hl (n := g.len - 2) (read := 2)
      (write := 1) (by omega) (by omega)
    constructor
    · intro hs i h1 h2
      cases hi : same i with
      | true => rfl
      | false =>
        rw [i1 ⟨i, h1, by omega, hi⟩] at hs
        cases hs
    · intro hall
      obtain ⟨s', e', _⟩ := i2 fun i h1 h2 => hall i h1 (by omega)
      rw [e']; rfl
  · have : g.len - 2 = 0 := by omega
    rw [this]
    exact ⟨fun _ i _ _ => by omega, fun _ => rfl⟩

/-- The `StackVec` inside a `SmallVec`: `push`, `pop`, `clear`, `swap_remove` and the destructor
keep to the rules. -/
theorem C138_stack_partial (n len : Nat) (h : len ≤ n) :
    (len < n → (stackPush n len (fresh .uniq n)).isSome = true) ∧
    (0 < len → (pop false n len (fresh .uniq n)).isSome = true) ∧
    (stackClear n len (fresh .uniq n)).isSome = true ∧
    (∀ i, i < len → (stackSwapRemove n len i (fresh .uniq n)).isSome = true) ∧
    (stackDrop n len (fresh .uniq n)).isSome = true := by
  have hi := inv_fresh (p := .uniq) (.inl rfl) n
  obtain ⟨s1, e1, _⟩ := hi.stackClear h
  refine ⟨fun hl => ?_, fun h0 => ?_, by rw [e1]; rfl, fun i hil => ?_, ?_⟩
  · obtain ⟨s, e, _⟩ := hi.stackPush hl
    rw [e]; rfl
  · obtain ⟨s, e, _⟩ := hi.pop false h h0
    rw [e]; rfl
  · obtain ⟨s, e, _⟩ := hi.stackSwapRemove h hil
    rw [e]; rfl
  · have : (stackDrop n len : B Unit) = stackClear n len := rfl
    rw [this, e1]; rfl

/-- Whether a call did what it should to the length, and which references the program still has. -/
theorem C138_lengths_partial (dbg : Bool) (g g' : Prog St) (c : Call) (e : g.step dbg c = some g') :
    (g'.len = match c with
      | .pop => g.len - 1
      | .clear => 0
      | .truncate n => min g.len n
      | .insertLast => if g.len < g.cap then g.len + 1 else g.len
      | .removeLast => g.len - 1
      | .swapRemoveOnly => if g.len = 1 then 0 else g.len
      | _ => g.len) ∧
    (match c with
      | .capacity | .readShr _ _ => g'.shr = g.shr
      | .asSlice => ∃ t, g'.shr = g.shr ++ [(t, 0, g.len)]
      | .index i => i < g.len → ∃ t, g'.shr = g.shr ++ [(t, i, 1)]
      | .readMut _ | .writeMut _ => g'.shr = g.shr ∧ g'.uniq = g.uniq
      | .asMutSlice => ∃ t, g'.uniq = some (t, 0, g.len)
      | .indexMut i => i < g.len → ∃ t, g'.uniq = some (t, i, 1)
      | _ => True) := by
  cases c <;> simp only [Prog.step, Prog.shared, Prog.unique, Prog.through] at e <;>
    repeat' split at e
  all_goals first
    | (cases e; done)
    | (cases e; refine ⟨?_, ?_⟩ <;> simp <;> (try split) <;> omega)

/-- When exactly the calls keep to the rules. -/
theorem C138_exact_partial (dbg : Bool) (g : Prog St) (h : Reached dbg g) :
    (∀ n, g.len + n ≤ g.cap → ((append dbg g.cap g.len n g.st).isSome = true ↔ n = 0)) ∧
    (∀ i, i ≤ g.len → g.len < g.cap →
      ((insert dbg g.cap g.len i g.st).isSome = true ↔ i = g.len)) ∧
    (∀ i, i < g.len → ((remove dbg g.cap g.len i g.st).isSome = true ↔ i + 1 = g.len)) ∧
    (∀ i, i < g.len → ((swapRemove dbg g.cap g.len i g.st).isSome = true ↔ g.len = 1)) ∧
    (∀ k, (splitOff g.cap g.len k g.st).isSome = true ↔ g.len ≤ k + 1) ∧
    ((spareCapacity g.cap g.len g.st).isSome = true ↔ g.len = g.cap) ∧
    ((spareCapacityMut g.cap g.len g.st).isSome = true ↔ g.len = g.cap) ∧
    (∀ i, (intoDrop dbg g.cap g.len i g.st).isSome = true ↔ g.len ≤ i) ∧
    ∀ wt wk same, 0 < g.len →
      ((dedupBy dbg g.cap g.len wt wk same g.st).isSome = true ↔ g.len ≤ 2) := by
  have hi := h.pinv.inv
  have hl := h.pinv.len
  have no : ∀ {β : Type} {m : Option β}, m = none → ¬ m.isSome = true := fun e => by rw [e]; simp
  refine ⟨fun n hn => ?_, fun i h1 h2 => ?_, fun i h1 => ?_, fun i h1 => ?_, fun k => ?_, ?_, ?_,
    fun i => ?_, fun wt wk same h0 => ?_⟩
  · refine ⟨fun hs => Classical.byContradiction fun hne =>
      no (hi.append_none dbg hn (by omega)) hs, ?_⟩
    rintro rfl
    obtain ⟨s0, e0, h0, _⟩ := hi.capacity
    obtain ⟨t, s1, e1, h1, _⟩ := h0.asMutPtr hl
    obtain ⟨s2, e2, h2, _⟩ := h1.writeAt (t := t) (lo := g.len) (n := 0) fun j _ _ => by omega
    obtain ⟨s3, e3, h3, _⟩ := h2.setLen dbg
    simp only [append]
    rw [bind_some e0, bind_some e1, bind_some e2, e3]; rfl
  · refine ⟨fun hs => Classical.byContradiction fun hne =>
      no (hi.insert_none dbg h2 (i := i) (by omega)) hs, ?_⟩
    rintro rfl
    obtain ⟨s, e, _⟩ := hi.insert_last dbg h2
    rw [e]; rfl
  · refine ⟨fun hs => Classical.byContradiction fun hne =>
      no (hi.remove_none dbg hl (i := i) (by omega)) hs, fun e => ?_⟩
    obtain ⟨s, e', _⟩ := hi.remove_last dbg hl (by omega)
    have : i = g.len - 1 := by omega
    rw [this, e']; rfl
  · refine ⟨fun hs => Classical.byContradiction fun hne =>
      no (hi.swapRemove_none dbg hl h1 (by omega)) hs, fun e => ?_⟩
    obtain ⟨s, e', _⟩ := hi.swapRemove_one dbg (by omega)
    have : i = 0 := by omega
    rw [this, e, e']; rfl
  · refine ⟨fun hs => Classical.byContradiction fun hne =>
      no (hi.splitOff_none hl (k := k) (by omega)) hs, fun hk => ?_⟩
    simp only [splitOff]
    split
    · rfl
    · obtain ⟨t, s1, e1, h1, _, _, _, m1, _⟩ := hi.getRef hl (i := k) (by omega)
      obtain ⟨s2, e2, _⟩ := h1.readAt (t := t) (lo := k) (n := g.len - k) fun j hj1 hj2 => by
        have : j = k := by omega
        subst this; exact canR_sro m1
      rw [bind_some e1, e2]; rfl
  · refine ⟨fun hs => Classical.byContradiction fun hne => no (hi.spare_none (by omega)) hs,
      fun e => ?_⟩
    obtain ⟨t, s1, e1, h1, _⟩ := hi.slice hl
    obtain ⟨s2, e2, h2, _⟩ := h1.capacity
    obtain ⟨s3, e3, _⟩ := h2.shrRef (t := t) (lo := g.len) (n := g.cap - g.len)
      fun j _ _ => by omega
    simp only [spareCapacity, asPtr]
    rw [bind_some e1, bind_some e2, e3]; rfl
  · refine ⟨fun hs => Classical.byContradiction fun hne => no (hi.spareMut_none (by omega)) hs,
      fun e => ?_⟩
    obtain ⟨t, s1, e1, h1, _⟩ := hi.asMutPtr hl
    obtain ⟨s2, e2, h2, _⟩ := h1.capacity
    obtain ⟨s3, e3, _⟩ := h2.mutRef (t := t) (lo := g.len) (n := g.cap - g.len)
      fun j _ _ => by omega
    simp only [spareCapacityMut]
    rw [bind_some e1, bind_some e2, e3]; rfl
  · refine ⟨fun hs => Classical.byContradiction fun hne =>
      no (hi.intoDrop_none dbg (i := i) (by omega)) hs, fun hk => ?_⟩
    have h0 : g.len - i = 0 := by omega
    obtain ⟨s1, e1, h1, _⟩ := hi.setLen dbg
    obtain ⟨t, s2, e2, h2, _⟩ := h1.asMutPtr (len := 0) (Nat.zero_le _)
    obtain ⟨s3, e3, _⟩ := h2.mutRef (t := t) (lo := i) (n := g.len - i) fun j _ _ => by omega
    simp only [intoDrop]
    rw [bind_some e1, bind_some e2, bind_some e3, h0]; rfl
  · refine ⟨fun hs => Classical.byContradiction fun hne =>
      no (hi.dedupBy_none dbg hl (by omega)) hs, fun hk => ?_⟩
    have hz : g.len - 2 = 0 := by omega
    obtain ⟨t, s1, e1, h1, _⟩ := hi.getMutPtr hl (i := 0) h0
    obtain ⟨s2, e2, _⟩ := h1.setLen dbg
    simp only [dedupBy]
    rw [bind_some e1, bind_some e2, hz]; rfl

/-- `push` breaks the rules, every time: it writes through a pointer made for the elements that
are there already. -/
theorem C138_push_refuted (dbg : Bool) (g : Prog St) (h : Reached dbg g) (hl : g.len < g.cap) :
    push dbg g.cap g.len g.st = none := h.pinv.inv.push_none dbg hl

/-- So does `append` of a vector that is not empty. -/
theorem C138_append_refuted (dbg : Bool) (g : Prog St) (h : Reached dbg g) (n : Nat) (h0 : 0 < n)
    (hl : g.len + n ≤ g.cap) : append dbg g.cap g.len n g.st = none :=
  h.pinv.inv.append_none dbg hl h0

/-- So does `insert` at any place but the end. -/
theorem C138_insert_refuted (dbg : Bool) (g : Prog St) (h : Reached dbg g) (i : Nat)
    (hi : i < g.len) (hl : g.len < g.cap) : insert dbg g.cap g.len i g.st = none :=
  h.pinv.inv.insert_none dbg hl hi

/-- So does `remove` of any element but the last. -/
theorem C138_remove_refuted (dbg : Bool) (g : Prog St) (h : Reached dbg g) (i : Nat)
    (hi : i + 1 < g.len) : remove dbg g.cap g.len i g.st = none :=
  h.pinv.inv.remove_none dbg h.pinv.len hi

/-- So does `swap_remove` of a vector of two elements or more. -/
theorem C138_swap_remove_refuted (dbg : Bool) (g : Prog St) (h : Reached dbg g) (i : Nat)
    (hi : i < g.len) (h2 : 2 ≤ g.len) : swapRemove dbg g.cap g.len i g.st = none :=
  h.pinv.inv.swapRemove_none dbg h.pinv.len hi h2

/-- So does `split_off` that moves elements: for the old vector if there are two or more, and for
the new one always. -/
theorem C138_split_off_refuted (dbg : Bool) (g : Prog St) (h : Reached dbg g) (k : Nat)
    (hk : k < g.len) :
    (k + 1 < g.len → splitOff g.cap g.len k g.st = none) ∧
    splitOffNew (g.len - k) (fresh .srw (g.len - k)) = none :=
  ⟨fun h2 => h.pinv.inv.splitOff_none h.pinv.len h2,
    (inv_fresh (.inr rfl) _).splitOffNew_none (by omega)⟩

/-- So does making a vector of an array. -/
theorem C138_from_array_refuted (dbg : Bool) (n : Nat) (h : 0 < n) :
    fromArray dbg n (fresh .srw n) = none := (inv_fresh (.inr rfl) n).fromArray_none dbg h

/-- So does asking for the spare capacity when there is some. -/
theorem C138_spare_refuted (dbg : Bool) (g : Prog St) (h : Reached dbg g) (hl : g.len < g.cap) :
    spareCapacity g.cap g.len g.st = none ∧ spareCapacityMut g.cap g.len g.st = none :=
  ⟨h.pinv.inv.spare_none hl, h.pinv.inv.spareMut_none hl⟩

/-- So does dropping an `IntoIter` that still has elements. -/
theorem C138_into_iter_drop_refuted (dbg : Bool) (g : Prog St) (h : Reached dbg g) (i : Nat)
    (hi : i < g.len) : intoDrop dbg g.cap g.len i g.st = none :=
  h.pinv.inv.intoDrop_none dbg hi

/-- So does `dedup_by`, and with it `dedup`, of a vector of three elements or more, whatever the
closure does. -/
theorem C138_dedup_by_refuted (dbg : Bool) (g : Prog St) (h : Reached dbg g) (h3 : 3 ≤ g.len)
    (wt wk same : Nat → Bool) : dedupBy dbg g.cap g.len wt wk same g.st = none :=
  h.pinv.inv.dedupBy_none dbg h.pinv.len h3

/-- The `StackVec` inside a `SmallVec`: `insert` and `remove` always break the rules. -/
theorem C138_stack_refuted (n len i : Nat) (h : len ≤ n) :
    (i ≤ len → stackInsert n len i (fresh .uniq n) = none) ∧
    (i < len → stackRemove n len i (fresh .uniq n) = none) :=
  ⟨fun hi => (inv_fresh (.inl rfl) n).stackInsert_none h hi,
    fun hi => (inv_fresh (.inl rfl) n).stackRemove_none h hi⟩

/-- The bytes of a `String`: `remove` keeps to the rules if and only if the character is the last;
inserting if and only if there is nothing to insert and nothing to move; and so does moving
characters in `retain`. -/
theorem C138_string_partial (dbg : Bool) (g : Prog St) (h : Reached dbg g) :
    (∀ idx next, idx < next → next ≤ g.len →
      ((strRemove dbg g.cap g.len idx next g.st).isSome = true ↔ next = g.len)) ∧
    (∀ idx amt, idx ≤ g.len → g.len + amt ≤ g.cap →
      ((strInsert dbg g.cap g.len idx amt g.st).isSome = true ↔ idx = g.len ∧ amt = 0)) ∧
    ∀ to n, to + n ≤ g.len → (strRetainMove g.cap g.len to n g.st).isSome = true := by
  refine ⟨fun idx next h1 h2 => h.pinv.inv.strRemove dbg h.pinv.len h1 h2,
    fun idx amt h1 h2 => h.pinv.inv.strInsert dbg h2 h1, fun to n hn => ?_⟩
  obtain ⟨s, e, _⟩ := h.pinv.inv.strRetainMove h.pinv.len hn
  rw [e]; rfl

/-- A `SmallVec` with elements that moves to the heap or back breaks the rules. -/
theorem C138_move_refuted (cap n : Nat) (h : 0 < n) :
    moveToHeap cap n (fresh .srw cap) = none ∧ moveToStack cap n (fresh .uniq cap) = none :=
  ⟨(inv_fresh (.inr rfl) cap).fill_none h, (inv_fresh (.inl rfl) cap).fill_none h⟩

/-- A program with references of all kinds. -/
def someCalls : List Call :=
  [.asSlice, .index 1, .capacity, .readShr 0 2, .readShr 1 1, .asMutSlice, .writeMut 0, .readMut 2,
    .insertLast, .indexMut 3, .writeMut 3, .truncate 2, .removeLast, .pop, .clear]

example : ∃ g, (Prog.start (σ := St) 5 3).run true someCalls = some g :=
  C138_calls_partial true 5 3 (by decide) someCalls

/-- It does hold references, and they are used. -/
example : ((Prog.start (σ := St) 5 3).run true (someCalls.take 5)).map (fun g => (g.shr, g.uniq, g.len)) =
    some ([(2, 0, 3), (5, 1, 1)], none, 3) := by decide

example : ((Prog.start (σ := St) 5 3).run true (someCalls.take 11)).map (fun g => (g.shr, g.uniq.map (·.2),
    g.len)) = some ([], some (3, 1), 4) := by decide

/-- A reference used after its time is caught. -/
example : (((Prog.start (σ := St) 2 2).step true .asSlice).bind (·.step true .asMutSlice)).bind
    (fun g => Mach.readAt 2 0 1 g.st) = none := by decide

/-- A vector with room, in the middle of a program. -/
theorem reached_some : Reached true (((Prog.start (σ := St) 4 3).run true [.index 1, .readShr 0 1]).getD (Prog.start (σ := St) 0 0)) :=
  ⟨4, 3, [.index 1, .readShr 0 1], by decide, rfl⟩

example : push true 4 3 (((Prog.start (σ := St) 4 3).run true [.index 1, .readShr 0 1]).getD (Prog.start (σ := St) 0 0)).st = none :=
  C138_push_refuted true _ reached_some (by decide)

end Lokky.SB
