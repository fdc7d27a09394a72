import Verif.Model.BorrowsRc

/-!
# Tree Borrows

The second proposal for the aliasing rules of Rust, *Tree Borrows* (Villani, Hostert, Dreyer, Jung,
PLDI 2025), for one block of memory. Not code of the crate: it is what the code is checked against.

Every reference is a node below the pointer it was made from, and has a permission for every slot.
An access with a pointer is *local* for the nodes on the way from its own node up to the root, and
*foreign* for all other nodes. Raw pointers and `&UnsafeCell`s have no node of their own. Making a
reference reads the slots it is for; what it may do with other slots of the block is decided when
it is used there.

Left out: protectors (which forbid some accesses while a function that got the reference as an
argument runs), and the difference between types with and without interior mutability for `&mut`
(it concerns `Reserved` and writes of others only).
-/

namespace Lokky.TB

open Lokky.Alias

/-- What a node may do with a slot. -/
inductive Perm where
  /-- a `&mut` that has not been written through -/
  | reserved
  /-- a `&mut` that has been written through -/
  | active
  /-- a `&`, or a `&mut` after others read what it wrote -/
  | frozen
  /-- the slot has been written by others -/
  | disabled
deriving DecidableEq, Repr

/-- May a node read, or write (`w`)? -/
def Perm.allows (w : Bool) : Perm → Bool
  | .reserved => true
  | .active => true
  | .frozen => !w
  | .disabled => false

/-- After a local access. -/
def Perm.own (w : Bool) : Perm → Perm
  | .reserved => if w then .active else .reserved
  | p => p

/-- After a foreign access. -/
def Perm.other (w : Bool) (p : Perm) : Perm :=
  if w then .disabled else if p = .active then .frozen else p

/-- Which slots there are, for every pointer the nodes it is below (with its own), the permission
of every node for every slot, and the next free number. -/
structure St where
  live : Nat → Bool
  path : Nat → List Nat
  perm : Nat → Nat → Perm
  next : Nat

/-- Code on this machine. -/
abbrev B (β : Type) : Type := M St β

/-- Is slot `i` one of `n` from `lo` on? -/
def within (lo n i : Nat) : Bool := decide (lo ≤ i ∧ i < lo + n)

/-- May pointer `t` access these slots? -/
def St.grants (s : St) (w : Bool) (t lo n : Nat) : Bool :=
  (List.range n).all fun k => s.live (lo + k) &&
    (s.path t).all fun u => (s.perm (lo + k) u).allows w

/-- After the access. -/
def St.after (s : St) (w : Bool) (t lo n : Nat) : St :=
  { s with
    perm := fun i u =>
      if within lo n i then
        if u ∈ s.path t then (s.perm i u).own w else (s.perm i u).other w
      else s.perm i u }

/-- Read or write `n` slots from `lo` on with pointer `t`. -/
def access (w : Bool) (t lo n : Nat) : B Unit := fun s =>
  if s.grants w t lo n then some ((), s.after w t lo n) else none

/-- A new pointer with a node of its own, below pointer `t`. -/
def child (t : Nat) (p : Perm) : B Nat := fun s =>
  some (s.next,
    { s with
      path := fun u => if u = s.next then s.next :: s.path t else s.path u
      perm := fun i u => if u = s.next then p else s.perm i u
      next := s.next + 1 })

/-- A new pointer without a node of its own. -/
def same (t : Nat) : B Nat := fun s =>
  some (s.next,
    { s with
      path := fun u => if u = s.next then s.path t else s.path u
      next := s.next + 1 })

/-- A reference to `n` slots from `lo` on, made from pointer `t`. -/
def refTo (p : Perm) (t lo n : Nat) : B Nat := do
  let u ← child t p
  access false u lo n
  ret u

/-- A block of `cap` slots with the pointer to it (ptr.rs 251-284). -/
def fresh (cap : Nat) : St := ⟨fun i => decide (i < cap), fun _ => [0], fun _ _ => .active, 1⟩

/-- One more block, with the same pointer; nothing made before may be used with it. -/
def allocAt (f n : Nat) : B Unit := fun s =>
  some ((), { s with
    live := fun i => within f n i || s.live i
    perm := fun i u =>
      if within f n i then if u = 0 then .active else .disabled else s.perm i u })

instance instMach : Mach St where
  mutRef := refTo .reserved
  shrRef := refTo .frozen
  rawMut := fun t _ _ => same t
  readAt := access false
  writeAt := access true
  heap := fresh
  alloc := allocAt

end Lokky.TB
