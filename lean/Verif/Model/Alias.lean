/-!
# Code, as far as aliasing rules are concerned

The functions of the crate, reduced to the pointers they make and use, are written once
(Model/BorrowsVec.lean, Model/BorrowsRc.lean) and run on two machines: Stacked Borrows
(Model/Borrows.lean) and Tree Borrows (Model/TreeBorrows.lean). This file says what a machine is.
Not code of the crate.
-/

namespace Lokky.Alias

/-- Code on a machine with states `σ`; `none`: it breaks the rules. -/
abbrev M (σ β : Type) : Type := σ → Option (β × σ)

/-- Returning a value. -/
def ret {σ β : Type} (b : β) : M σ β := fun s => some (b, s)

/-- First `m`, then `k`. -/
def M.bind {σ β γ : Type} (m : M σ β) (k : β → M σ γ) : M σ γ := fun s =>
  match m s with
  | some (b, s') => k b s'
  | none => none

instance instMonadM (σ : Type) : Monad (M σ) where
  pure := ret
  bind := M.bind

/-- What aliasing rules say about. Memory is slots, pointers are numbers; 0 is the pointer that
came from the allocator. The arguments are a pointer, the first slot, and how many slots. -/
class Mach (σ : Type) where
  /-- make a `&mut` from a pointer -/
  mutRef : Nat → Nat → Nat → M σ Nat
  /-- make a `&` from a pointer -/
  shrRef : Nat → Nat → Nat → M σ Nat
  /-- make a raw pointer from a `&mut`, or a `&UnsafeCell` from any pointer that may write -/
  rawMut : Nat → Nat → Nat → M σ Nat
  /-- read with a pointer -/
  readAt : Nat → Nat → Nat → M σ Unit
  /-- write with a pointer -/
  writeAt : Nat → Nat → Nat → M σ Unit
  /-- a new block, the first `n` slots -/
  heap : Nat → σ
  /-- one more block: the first slot, and how many slots -/
  alloc : Nat → Nat → M σ Unit

end Lokky.Alias
