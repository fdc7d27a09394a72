import Verif.Model.BorrowsVec

/-!
# `Box` and the aliasing rules

The functions of `Box`, reduced to the pointers they make and use (see Model/Alias.lean).

The block has `n` slots: one for a `Box<T>`, as many as there are elements for a `Box<[T]>` or a
`Box<str>`. The value is taken to be without `UnsafeCell`s. `p` is the pointer in the `ScopePtr`.
-/

namespace Lokky.Alias

variable {σ : Type} [Mach σ]

/-- `as_ref`, `borrow`, `deref` (boxed.rs 39-49, 69-75; `ScopePtr::deref`, ptr.rs 22-24): the
`&T`. Also what `Debug`, `Display`, `PartialEq`, `PartialOrd`, `Ord`, `Hash`, `finish`, `size_hint`
and `len` begin with (boxed.rs 57-67, 90-92, 109-134, 141-151). -/
def bxDeref (p n : Nat) : M σ Nat := Mach.shrRef p 0 n

/-- `as_mut`, `borrow_mut`, `deref_mut` (boxed.rs 33-37, 51-55, 77-81; `ScopePtr::deref_mut`, ptr.rs
28-30): the `&mut T`. Also what `next`, `nth`, `next_back`, `nth_back` and `Hasher::write` begin
with (boxed.rs 86-88, 94-96, 100-106, 136-138). -/
def bxDerefMut (p n : Nat) : M σ Nat := Mach.mutRef p 0 n

/-- `Box::new`, `Box::new_with` (boxed.rs 10-16; `ScopePtr::alloc`, ptr.rs 181-185): `*ptr = value`,
which also drops what was in the memory, as far as pointers are concerned. -/
def bxNew (p n : Nat) : M σ Unit := do
  let t ← bxDerefMut p n
  forUp (fun i => dropAt t i) 0 n
  Mach.writeAt t 0 n

/-- `From<Box<str>> for Box<[u8]>` (boxed.rs 153-157; `cast_str_to_bytes`, ptr.rs 147-158): the new
pointer is made from the old one by way of two `&mut`s. -/
def bxToBytes (p n : Nat) : M σ Nat := do
  let _ ← Mach.shrRef p 0 n
  let a ← Mach.mutRef p 0 n
  let q ← Mach.rawMut a 0 n
  let c ← Mach.mutRef q 0 n
  Mach.rawMut c 0 n

/-- `dealloc` (ptr.rs 241-245): `Layout::for_value(self.ptr.as_ref())`, then the memory is given
back, which is only allowed with a pointer that may write all of it. -/
def bxDealloc (p n : Nat) : M σ Unit := do
  let _ ← Mach.shrRef p 0 n
  Mach.writeAt p 0 n

/-- `Drop` (ptr.rs 33-41): `drop_in_place`, for every element, and `dealloc`. -/
def bxDrop (p n : Nat) : M σ Unit := do
  forUp (fun i => dropAt p i) 0 n
  bxDealloc p n

/-- `into_inner` (boxed.rs 18-20; ptr.rs 202-208) up to the point where the value has been taken and
the memory given back. (What follows, the destructor of `self`, is what C27 is about.) -/
def bxIntoInner (p n : Nat) : M σ Unit := do
  Mach.readAt p 0 n
  bxDealloc p n

/-- What a program does with a box and with the references it got from it. -/
inductive BxCall where
  /-- `&*b` and all functions that take `&self`: a new `&T` -/
  | deref
  /-- read slot `i` through the `j`th `&T` -/
  | read (j i : Nat)
  /-- `&mut *b` and all functions that take `&mut self`: a new `&mut T` -/
  | derefMut
  /-- read slot `i` through the `&mut T` -/
  | readMut (i : Nat)
  /-- write slot `i` through the `&mut T` -/
  | write (i : Nat)
  /-- drop slot `i` through the `&mut T`, as an assignment does -/
  | dropOld (i : Nat)
  /-- `Box::<[u8]>::from(b)` -/
  | toBytes
  /-- `drop(b)` -/
  | drop
  /-- `b.into_inner()` -/
  | intoInner
deriving Repr

/-- The program: the block, the pointer in the box (none: the box is gone), the number of slots, and
the `&T`s and the `&mut T` that are still in use. -/
structure BxProg (σ : Type) where
  st : σ
  ptr : Option Nat
  n : Nat
  refs : List Nat
  mref : Option Nat

/-- Run code of the library, then go on with the result. -/
def BxProg.call {β : Type} (g : BxProg σ) (m : M σ β) (k : β → BxProg σ → BxProg σ) :
    Option (BxProg σ) :=
  match m g.st with
  | some (b, st) => some (k b { g with st := st })
  | none => none

/-- One step of the program; `none`: it breaks the aliasing rules. What does not compile changes
nothing, nor does an index that is out of range. A call with `&b` ends the use of the `&mut T`, one
with `&mut b` or `b` ends the use of all references, by the rules of Rust. -/
def BxProg.step (g : BxProg σ) (c : BxCall) : Option (BxProg σ) :=
  match g.ptr with
  | none => some g
  | some p =>
    match c with
    | .deref => g.call (bxDeref p g.n) fun t g => { g with refs := g.refs ++ [t], mref := none }
    | .read j i =>
      match g.refs[j]? with
      | some t => if i < g.n then g.call (Mach.readAt t i 1) fun _ g => g else some g
      | none => some g
    | .derefMut => g.call (bxDerefMut p g.n) fun t g => { g with refs := [], mref := some t }
    | .readMut i =>
      match g.mref with
      | some t => if i < g.n then g.call (Mach.readAt t i 1) fun _ g => g else some g
      | none => some g
    | .write i =>
      match g.mref with
      | some t => if i < g.n then g.call (Mach.writeAt t i 1) fun _ g => g else some g
      | none => some g
    | .dropOld i =>
      match g.mref with
      | some t => if i < g.n then g.call (dropAt t i) fun _ g => g else some g
      | none => some g
    | .toBytes =>
      g.call (bxToBytes p g.n) fun q g => { g with ptr := some q, refs := [], mref := none }
    | .drop => g.call (bxDrop p g.n) fun _ g => { g with ptr := none, refs := [], mref := none }
    | .intoInner =>
      g.call (bxIntoInner p g.n) fun _ g => { g with ptr := none, refs := [], mref := none }

/-- A program, step by step. -/
def BxProg.run : List BxCall → BxProg σ → Option (BxProg σ)
  | [], g => some g
  | c :: cs, g =>
    match g.step c with
    | some g' => BxProg.run cs g'
    | none => none

/-- A new box: the memory, and writing the value. -/
def BxProg.start (n : Nat) : Option (BxProg σ) :=
  BxProg.call ⟨Mach.heap n, some 0, n, [], none⟩ (bxNew 0 n) fun _ g => g

end Lokky.Alias
