import Verif.Model.Alias

/-!
# Stacked Borrows

Not code of the crate: the aliasing rules of Rust that the code has to obey, as given by Stacked
Borrows (Jung, Dang, Kang, Dreyer, "Stacked Borrows: An Aliasing Model for Rust", POPL 2020) and
checked by Miri. Every place in memory has a stack of items; making a reference from another
pointer ("retagging") and accessing memory are allowed only for pointers whose item is in the
stacks of all places concerned, and take away the rights of others.

Memory is one block of slots. Left out: protectors of function arguments (they only forbid
more). For Tree Borrows see Model/TreeBorrows.lean.
-/

open Lokky.Alias

namespace Lokky.SB

/-- Rights of an item: `uniq` for `&mut`, `srw` for raw pointers and references to `UnsafeCell`s,
`sro` for `&`, `off` for a `&mut` that lost its rights to a read by others. -/
inductive Perm where
  | uniq | srw | sro | off
deriving DecidableEq, Repr

/-- An item of a stack: the pointer (by its tag) and its rights. -/
structure Item where
  tag : Nat
  perm : Perm
deriving DecidableEq, Repr

/-- The stack of a slot, top first. -/
abbrev Stack := List Item

/-- The first item that has the property, with what is above and what is below. -/
def splitFirst (p : Item → Bool) : Stack → Option (Stack × Item × Stack)
  | [] => none
  | i :: is =>
    if p i then some ([], i, is)
    else
      match splitFirst p is with
      | some (above, g, below) => some (i :: above, g, below)
      | none => none

/-- Does the item allow the pointer `t` to read? -/
def Item.reads (t : Nat) (i : Item) : Bool := i.tag == t && i.perm != .off

/-- Does the item allow the pointer `t` to write? -/
def Item.writes (t : Nat) (i : Item) : Bool := i.tag == t && (i.perm == .uniq || i.perm == .srw)

/-- What a read by others leaves of an item. -/
def Item.afterRead (i : Item) : Item := if i.perm = .uniq then ⟨i.tag, .off⟩ else i

/-- A read with pointer `t`: `&mut`s above its item lose their rights. -/
def Stack.read (t : Nat) (s : Stack) : Option Stack :=
  match splitFirst (Item.reads t) s with
  | some (above, g, below) => some (above.map Item.afterRead ++ g :: below)
  | none => none

/-- The items above an item `g` that a write through `g` does not touch: raw pointers directly
above a raw pointer. The items are listed from the bottom. -/
def group (g : Item) (above : Stack) : Stack :=
  if g.perm = .srw then above.takeWhile fun i => i.perm == .srw else []

/-- The item of pointer `t` for writing, split off with the items compatible with it: what is above
these, and the rest. -/
def Stack.grantWrite (t : Nat) (s : Stack) : Option (Stack × Stack) :=
  match splitFirst (Item.writes t) s with
  | some (above, g, below) =>
    let up := above.reverse
    let k := (group g up).length
    some ((up.drop k).reverse, (up.take k).reverse ++ g :: below)
  | none => none

/-- A write with pointer `t`: everything above its item, but for raw pointers directly above a raw
pointer, is gone. -/
def Stack.write (t : Nat) (s : Stack) : Option Stack :=
  match s.grantWrite t with
  | some (_, kept) => some kept
  | none => none

/-- Make `&mut` `new` from pointer `t`: counts as a write. -/
def Stack.mutRef (t new : Nat) (s : Stack) : Option Stack :=
  match s.write t with
  | some s' => some (⟨new, .uniq⟩ :: s')
  | none => none

/-- Make `&` `new` from pointer `t`: counts as a read. -/
def Stack.shrRef (t new : Nat) (s : Stack) : Option Stack :=
  match s.read t with
  | some s' => some (⟨new, .sro⟩ :: s')
  | none => none

/-- Make a raw pointer `new` from `&mut` `t`, or a reference to an `UnsafeCell` from any pointer
that may write: no access; the new item goes directly above that of `t`. -/
def Stack.rawMut (t new : Nat) (s : Stack) : Option Stack :=
  match s.grantWrite t with
  | some (above, kept) => some (above ++ ⟨new, .srw⟩ :: kept)
  | none => none

/-- A block of memory: the stack of every slot, and the next free tag. -/
structure St where
  stack : Nat → Stack
  next : Nat

/-- Code on this machine. -/
abbrev B (β : Type) : Type := M St β

/-- Do something with the stacks of `n` slots from `lo` on. -/
def forSlots (f : Stack → Option Stack) : Nat → Nat → (Nat → Stack) → Option (Nat → Stack)
  | _, 0, st => some st
  | lo, n + 1, st =>
    match f (st lo) with
    | some k => forSlots f (lo + 1) n (fun i => if i = lo then k else st i)
    | none => none

/-- Do something with the stacks of `n` slots from `lo` on that makes a new pointer. -/
def retag (f : Nat → Stack → Option Stack) (lo n : Nat) : B Nat := fun s =>
  match forSlots (f s.next) lo n s.stack with
  | some st => some (s.next, ⟨st, s.next + 1⟩)
  | none => none

/-- `&mut` to `n` slots from `lo` on, made from pointer `t`. -/
def mutRef (t lo n : Nat) : B Nat := retag (Stack.mutRef t) lo n

/-- `&` to `n` slots from `lo` on, made from pointer `t`. -/
def shrRef (t lo n : Nat) : B Nat := retag (Stack.shrRef t) lo n

/-- `*mut` (or `&UnsafeCell`) to `n` slots from `lo` on, made from pointer `t`. -/
def rawMut (t lo n : Nat) : B Nat := retag (Stack.rawMut t) lo n

/-- Do something with the stacks of `n` slots from `lo` on. -/
def touch (f : Stack → Option Stack) (lo n : Nat) : B Unit := fun s =>
  match forSlots f lo n s.stack with
  | some st => some ((), ⟨st, s.next⟩)
  | none => none

/-- Read `n` slots from `lo` on with pointer `t`. -/
def readAt (t lo n : Nat) : B Unit := touch (Stack.read t) lo n

/-- Write `n` slots from `lo` on with pointer `t`. -/
def writeAt (t lo n : Nat) : B Unit := touch (Stack.write t) lo n

/-- A new block with the pointer to it, as returned by `alloc_array_uninit` and `realloc_array`
(ptr.rs 251-284); `p` are the rights of the pointer: `srw` for the raw pointer of a `ScopePtr`. -/
def fresh (p : Perm) (cap : Nat) : St := ⟨fun i => if i < cap then [⟨0, p⟩] else [], 1⟩

/-- One more block, with the same pointer. -/
def allocAt (f n : Nat) : B Unit := fun s =>
  some ((), ⟨fun i => if f ≤ i ∧ i < f + n then [⟨0, .srw⟩] else s.stack i, s.next⟩)

instance instMach : Mach St where
  mutRef := mutRef
  shrRef := shrRef
  rawMut := rawMut
  readAt := readAt
  writeAt := writeAt
  heap := fresh .srw
  alloc := allocAt

end Lokky.SB
