import Verif.Proofs.TreeProg

/-!
# C140: calls on a vector keep to Tree Borrows

"A program that only makes safe calls on a `Vec`, a `String` or a `SmallVec` never uses a pointer
that Tree Borrows does not allow it to use." Refuted by `dedup_by` with a closure that writes, and
by `SmallVec::remove` on a full `SmallVec`. All other calls keep to the rules, unlike under Stacked
Borrows (C138).
-/

open Lokky.Alias

namespace Lokky.TB

/-- The states in which a program can have a vector. -/
def Reached (dbg : Bool) (g : Prog St) : Prop :=
  ∃ cap len cs, len ≤ cap ∧ (Prog.start (σ := St) cap len).runAll dbg cs = some g

theorem Reached.pinv {dbg : Bool} {g : Prog St} (h : Reached dbg g) : PInv g := by
  obtain ⟨cap, len, cs, hl, e⟩ := h
  obtain ⟨g', e', h'⟩ := (pinv_start cap len hl).runAll dbg cs
  rw [e] at e'
  cases e'
  exact h'

theorem Wrk.isSome {β : Type} {cap : Nat} {m : B β} (h : Wrk cap m) {s : St} (hs : VInv cap s) :
    (m s).isSome = true := by
  obtain ⟨b, s', e, _⟩ := h s hs
  rw [e]; rfl

/-- A program with any calls in any order, that uses the references it gets as long as the borrow
checker lets it, keeps to the rules, if no closure of `dedup_by` writes the element kept last. -/
theorem C140_calls_partial (dbg : Bool) (cap len : Nat) (h : len ≤ cap) (cs : List VCall) :
    ∃ g, (Prog.start (σ := St) cap len).runAll dbg cs = some g := by
  obtain ⟨g, e, _⟩ := (pinv_start cap len h).runAll dbg cs
  exact ⟨g, e⟩

/-- What the calls do to the length, and which references the program has after them. -/
theorem C140_lengths_partial (dbg : Bool) (g g' : Prog St) (c : VCall)
    (e : g.stepAll dbg c = some g') :
    (g'.len = match c with
      | .of .pop => g.len - 1
      | .of .clear => 0
      | .of (.truncate n) => min g.len n
      | .of .insertLast => if g.len < g.cap then g.len + 1 else g.len
      | .of .removeLast => g.len - 1
      | .of .swapRemoveOnly => if g.len = 1 then 0 else g.len
      | .push => if g.len < g.cap then g.len + 1 else g.len
      | .append n => if g.len + n ≤ g.cap then g.len + n else g.len
      | .insert i => if i ≤ g.len ∧ g.len < g.cap then g.len + 1 else g.len
      | .remove i | .swapRemove i => if i < g.len then g.len - 1 else g.len
      | .splitOff n | .retain _ n | .dedupKey _ n | .dedupBy _ _ n => min g.len n
      | _ => g.len) ∧
    (match c with
      | .of .capacity | .of (.readShr _ _) => g'.shr = g.shr
      | .of .asSlice => ∃ t, g'.shr = g.shr ++ [(t, 0, g.len)]
      | .of (.index i) => i < g.len → ∃ t, g'.shr = g.shr ++ [(t, i, 1)]
      | .of (.readMut _) | .of (.writeMut _) => g'.shr = g.shr ∧ g'.uniq = g.uniq
      | .of .asMutSlice => ∃ t, g'.uniq = some (t, 0, g.len)
      | .of (.indexMut i) => i < g.len → ∃ t, g'.uniq = some (t, i, 1)
      | .spareCapacity => ∃ t, g'.shr = g.shr ++ [(t, g.len, g.cap - g.len)]
      | .spareCapacityMut => ∃ t, g'.uniq = some (t, g.len, g.cap - g.len)
      | _ => True) := by
  cases c with
  | of c =>
    cases c <;> simp only [Prog.stepAll, Prog.step, Prog.shared, Prog.unique, Prog.through] at e <;>
      repeat' split at e
    all_goals first
      | (cases e; done)
      | (cases e; refine ⟨?_, ?_⟩ <;> simp <;> (try split) <;> omega)
  | _ =>
    simp only [Prog.stepAll, Prog.shared, Prog.unique] at e
    repeat' split at e
    all_goals first
      | (cases e; done)
      | (cases e; refine ⟨?_, ?_⟩ <;> simp <;> (try split) <;> omega)

/-- Dropping the vector keeps to the rules. -/
theorem C140_drop_partial (dbg : Bool) (g : Prog St) (h : Reached dbg g) :
    (dropVec g.cap g.len g.st).isSome = true := (wrk_dropVec h.pinv.len).isSome h.pinv.inv

/-- So does all that can be done with an `IntoIter` that has given out `i` elements. -/
theorem C140_into_iter_partial (dbg : Bool) (g : Prog St) (h : Reached dbg g) (i : Nat)
    (hi : i ≤ g.len) :
    (i < g.len → (intoNext g.cap g.len i g.st).isSome = true) ∧
    (intoDrop dbg g.cap g.len i g.st).isSome = true ∧
    (∃ t s, intoSlice g.cap g.len i g.st = some (t, s) ∧
      (Mach.readAt t i (g.len - i) s).isSome = true) ∧
    ∃ t s, intoSliceMut g.cap g.len i g.st = some (t, s) ∧
      (Mach.writeAt t i (g.len - i) s).isSome = true := by
  have hl := h.pinv.len
  refine ⟨fun hi => (shr_intoNext hl hi).wrk.isSome h.pinv.inv,
    (wrk_intoDrop dbg hl hi).isSome h.pinv.inv, ?_, ?_⟩
  · obtain ⟨t, s, e, hs, _, q⟩ := shr_intoSlice hl hi g.st h.pinv.inv
    obtain ⟨s', e', _⟩ := hs.readAt (lo := i) (n := g.len - i) q (by omega)
    exact ⟨t, s, e, by rw [e']; rfl⟩
  · obtain ⟨t, s, e, hs, _, q⟩ := shr_intoSliceMut hl hi g.st h.pinv.inv
    obtain ⟨s', e', _⟩ := hs.writeAt (t := t) (lo := i) (n := g.len - i)
      fun j _ hj => q.2 j (by omega)
    exact ⟨t, s, e, by rw [e']; rfl⟩

/-- So does making a vector of an array, filling the vector that `split_off` returns, and moving
a `SmallVec` to the heap and back. -/
theorem C140_new_partial (dbg : Bool) (cap n : Nat) (h : n ≤ cap) :
    (fromArray dbg n (fresh n)).isSome = true ∧
    (splitOffNew n (fresh n)).isSome = true ∧
    (moveToHeap cap n (fresh cap)).isSome = true ∧
    (moveToStack cap n (fresh cap)).isSome = true :=
  ⟨(wrk_fromArray dbg n).isSome (vinv_fresh n), (wrk_splitOffNew n).isSome (vinv_fresh n),
    (wrk_moveToHeap h).isSome (vinv_fresh cap), (wrk_moveToStack h).isSome (vinv_fresh cap)⟩

/-- So do the functions of `String` that move bytes. -/
theorem C140_string_partial (dbg : Bool) (g : Prog St) (h : Reached dbg g) :
    (∀ idx next, idx ≤ next → next ≤ g.len →
      (strRemove dbg g.cap g.len idx next g.st).isSome = true) ∧
    (∀ idx amt, idx ≤ g.len → g.len + amt ≤ g.cap →
      (strInsert dbg g.cap g.len idx amt g.st).isSome = true) ∧
    ∀ to n, to + n ≤ g.cap → (strRetainMove g.cap g.len to n g.st).isSome = true :=
  ⟨fun _ _ h1 h2 => (wrk_strRemove dbg h.pinv.len h1 h2).isSome h.pinv.inv,
    fun _ _ h1 h2 => (wrk_strInsert dbg h2 h1).isSome h.pinv.inv,
    fun _ _ h1 => (wrk_strRetainMove h.pinv.len h1).isSome h.pinv.inv⟩

/-- So does any program with the `StackVec` inside a `SmallVec`, as long as `remove` is not called
when it is full, and the destructor after it. (`insert` at the end is not among the calls: it
indexes a slice with its length.) -/
theorem C140_stack_partial (n len : Nat) (h : len ≤ n) (cs : List SCall) :
    ∃ g, (Prog.start (σ := St) n len).runStack cs = some g ∧
      (stackDrop g.cap g.len g.st).isSome = true := by
  obtain ⟨g, e, h⟩ := (pinv_start n len h).runStack cs
  exact ⟨g, e, (wrk_stackDrop h.len).isSome h.inv⟩

/-- What these calls do to the length. -/
theorem C140_stack_lengths_partial (g g' : Prog St) (c : SCall) (e : g.stepStack c = some g') :
    g'.len = match c with
      | .push => if g.len < g.cap then g.len + 1 else g.len
      | .pop => g.len - 1
      | .clear => 0
      | .insert i => if i < g.len ∧ g.len < g.cap then g.len + 1 else g.len
      | .remove i => if i < g.len ∧ g.len < g.cap then g.len - 1 else g.len
      | .swapRemove i => if i < g.len then g.len - 1 else g.len
      | _ => g.len := by
  cases c <;> simp only [Prog.stepStack, Prog.step, Prog.shared, Prog.unique, Prog.through] at e <;>
    repeat' split at e
  all_goals first
    | (cases e; done)
    | (cases e; simp <;> (try split) <;> omega)

/-- `remove` of a full `StackVec` reads the slot past its end. -/
theorem C140_stack_remove_refuted (n i : Nat) (hi : i < n) :
    stackRemove n n i (fresh n) = none := stackRemove_none (vinv_fresh n) (by simp [fresh]) hi

/-- What `dedup_by` must not be given: element `i` was written by the closure and is the one kept
last, or the one kept last was written in round `i`; and in round `j` the closure writes it again,
all elements between being equal to it. -/
def WritesTwice (len : Nat) (wt wk same : Nat → Bool) : Prop :=
  ∃ i j, 2 ≤ i ∧ i < j ∧ j < len ∧ (if same i then wk i else wt i) = true ∧
    (∀ k, i < k → k < j → same k = true) ∧ wk j = true

/-- `dedup_by` keeps to the rules if and only if its closure does not write the element kept last
twice, or after it has been moved. -/
theorem C140_dedup_by_partial (dbg : Bool) (g : Prog St) (h : Reached dbg g) (h0 : 0 < g.len)
    (wt wk same : Nat → Bool) :
    (dedupBy dbg g.cap g.len wt wk same g.st).isSome = true ↔ ¬ WritesTwice g.len wt wk same := by
  obtain ⟨h1, h2⟩ := h.pinv.inv.dedupBy_iff dbg wt wk same h.pinv.len h0
  have hk := keptOnce_iff wt wk same (g.len - 2) false 2
  have hw : keptOnce wt wk same false 2 (g.len - 2) = false ↔ WritesTwice g.len wt wk same := by
    rw [hk]
    constructor
    · rintro (⟨h, _⟩ | ⟨i, j, a1, a2, a3, a4⟩)
      · cases h
      · exact ⟨i, j, a1, a2, by omega, a4⟩
    · rintro ⟨i, j, a1, a2, a3, a4⟩
      exact .inr ⟨i, j, a1, a2, by omega, a4⟩
  rw [← hw]
  constructor
  · intro hs hf
    rw [h2 hf] at hs
    cases hs
  · intro hf
    obtain ⟨s, e, _⟩ := h1 (by simpa using hf)
    rw [e]; rfl

/-- A closure that writes the element kept last in two rounds: all elements are equal, and it
writes the second of its arguments each time. -/
theorem C140_dedup_by_refuted (dbg : Bool) (g : Prog St) (h : Reached dbg g) (h4 : 4 ≤ g.len) :
    dedupBy dbg g.cap g.len (fun _ => false) (fun _ => true) (fun _ => true) g.st = none := by
  have := C140_dedup_by_partial dbg g h (by omega) (fun _ => false) (fun _ => true) (fun _ => true)
  cases e : dedupBy dbg g.cap g.len (fun _ => false) (fun _ => true) (fun _ => true) g.st with
  | none => rfl
  | some x =>
    rw [e] at this
    exact absurd ⟨2, 3, by omega, by omega, by omega, rfl, fun _ _ _ => rfl, rfl⟩ (this.1 rfl)

/-- A program with references of all kinds, and calls of all kinds. -/
def someCalls : List VCall :=
  [.of .asSlice, .of (.index 1), .of (.readShr 0 2), .of (.readShr 1 1), .of .asMutSlice,
    .of (.writeMut 0), .of (.readMut 2), .push, .insert 1, .remove 0, .swapRemove 1, .append 2,
    .spareCapacity, .of (.readShr 0 7), .spareCapacityMut, .of (.writeMut 6), .retain (· < 3) 3,
    .dedupKey (fun _ => false) 3, .dedupBy (fun _ => true) (fun _ => false) 3, .splitOff 2]

example : ∃ g, (Prog.start (σ := St) 8 4).runAll true someCalls = some g :=
  C140_calls_partial true 8 4 (by decide) someCalls

/-- The program comes to where there are references to be used. -/
example : ((Prog.start (σ := St) 8 4).runAll true (someCalls.take 4)).map
    (fun g => (g.shr.map (·.2), g.len)) = some ([(0, 4), (1, 1)], 4) := by decide +kernel

example : ((Prog.start (σ := St) 8 4).runAll true (someCalls.take 15)).map
    (fun g => (g.uniq.map (·.2), g.len)) = some (some (6, 2), 6) := by decide +kernel

theorem reached_some : Reached true
    (((Prog.start (σ := St) 5 4).runAll true [.remove 1, .push]).getD (Prog.start (σ := St) 0 0)) :=
  by
    obtain ⟨g, e⟩ := C140_calls_partial true 5 4 (by decide) [.remove 1, .push]
    rw [e]
    exact ⟨5, 4, _, by decide, e⟩

example : ∃ g : Prog St, Reached true g ∧ 4 ≤ g.len ∧
    dedupBy true g.cap g.len (fun _ => false) (fun _ => true) (fun _ => true) g.st = none :=
  ⟨_, reached_some, by decide +kernel, C140_dedup_by_refuted true _ reached_some (by decide +kernel)⟩

/-- The rules are not trivial: a `&` may not be used after a write through a `&mut` made since. -/
example : (do
    let r ← slice 2 2
    let w ← asMutPtr 2 2
    Mach.writeAt w 0 1
    Mach.readAt r 0 1 : B Unit) (fresh 2) = none := by decide +kernel

/-- Nor may a `&mut` be written through after what it wrote was read by others. -/
example : (do
    let w ← sliceMut 2 2
    Mach.writeAt w 0 1
    let _ ← slice 2 2
    Mach.writeAt w 0 1 : B Unit) (fresh 2) = none := by decide +kernel

/-- A closure of `dedup_by` that writes once what is kept last is fine, and one that writes twice is
not. -/
example : ¬ WritesTwice 4 (fun _ => false) (fun i => i == 2) (fun _ => true) := by
  rintro ⟨i, j, h1, h2, _, _, _, h6⟩
  simp at h6
  omega

example : stackRemove 3 3 0 (fresh 3) = none := C140_stack_remove_refuted 3 0 (by decide)

example : ∃ g, (Prog.start (σ := St) 4 3).runStack
      [.index 0, .readShr 0 0, .remove 0, .push, .insert 0, .indexMut 3, .writeMut 3, .swapRemove 1,
        .pop, .clear] = some g ∧ (stackDrop g.cap g.len g.st).isSome = true :=
  C140_stack_partial 4 3 (by decide) _

end Lokky.TB
