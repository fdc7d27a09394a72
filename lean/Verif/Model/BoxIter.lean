import Verif.Model.Boxed

/-!
# `Box<T>` as iterator and hasher (boxed.rs 83-114, 131-139)

The methods of `T` are parameters. A method with `&mut self` maps the value to the new value and to what it
returns; `none` is a panic.
-/

namespace Lokky

/-- `Iterator`, `DoubleEndedIterator` and `ExactSizeIterator` of the type in the box; `β` are its items. -/
structure IterFns (α β : Type) where
  next : α → Option (Option β) × α
  sizeHint : α → Option (Nat × Option Nat)
  nth : Nat → α → Option (Option β) × α
  nextBack : α → Option (Option β) × α
  nthBack : Nat → α → Option (Option β) × α
  len : α → Option Nat

/-- `Hasher` of the type in the box. -/
structure HasherFns (α : Type) where
  finish : α → Option UInt64
  write : List UInt8 → α → Option Unit × α

namespace Boxed
variable {α β γ : Type} (c : Cfg α) (r : IterFns α β) (k : HasherFns α)

/-- A method with `&mut self` called through `deref_mut` (boxed.rs 77-81). -/
def mutMethod (f : α → Option γ × α) : M (BSt α) γ := onSlot c do
  let a ← Buf.read c 0
  Buf.write c 0 (f a).2
  match (f a).1 with
  | some y => pure y
  | none => M.boom

/-- A method with `&self` called through `deref` (boxed.rs 69-75). -/
def refMethod (f : α → Option γ) : M (BSt α) γ := do
  let a ← read c
  match f a with
  | some y => pure y
  | none => M.boom

/-- `next` (boxed.rs 86-88). -/
def next : M (BSt α) (Option β) := mutMethod c r.next

/-- `size_hint` (boxed.rs 90-92). -/
def sizeHint : M (BSt α) (Nat × Option Nat) := refMethod c r.sizeHint

/-- `nth` (boxed.rs 94-96). -/
def nth (n : Nat) : M (BSt α) (Option β) := mutMethod c (r.nth n)

/-- `next_back` (boxed.rs 100-102). -/
def nextBack : M (BSt α) (Option β) := mutMethod c r.nextBack

/-- `nth_back` (boxed.rs 104-106). -/
def nthBack (n : Nat) : M (BSt α) (Option β) := mutMethod c (r.nthBack n)

/-- `len` (boxed.rs 110-112). -/
def exactLen : M (BSt α) Nat := refMethod c r.len

/-- `finish` (boxed.rs 132-134). -/
def finish : M (BSt α) UInt64 := refMethod c k.finish

/-- `write` (boxed.rs 136-138). -/
def write (bytes : List UInt8) : M (BSt α) Unit := mutMethod c (k.write bytes)

end Boxed

/-- Calls of a client on a value that is an iterator and a hasher. -/
inductive BoxCall
  | next | sizeHint | nth (n : Nat) | nextBack | nthBack (n : Nat) | len
  | finish | write (bytes : List UInt8)
  deriving DecidableEq

/-- What a call returns. -/
inductive BoxRet (β : Type)
  | item (x : Option β)
  | hint (x : Nat × Option Nat)
  | nat (n : Nat)
  | code (x : UInt64)
  | unit
  deriving DecidableEq

/-- The call on the box. -/
def runBoxCall {α β : Type} (c : Cfg α) (r : IterFns α β) (k : HasherFns α) : BoxCall → M (BSt α) (BoxRet β)
  | .next => do pure (.item (← Boxed.next c r))
  | .sizeHint => do pure (.hint (← Boxed.sizeHint c r))
  | .nth n => do pure (.item (← Boxed.nth c r n))
  | .nextBack => do pure (.item (← Boxed.nextBack c r))
  | .nthBack n => do pure (.item (← Boxed.nthBack c r n))
  | .len => do pure (.nat (← Boxed.exactLen c r))
  | .finish => do pure (.code (← Boxed.finish c k))
  | .write l => do let _ ← Boxed.write c k l; pure .unit

/-- Calls on the box one after the other; panics are caught. -/
def runBoxCalls {α β : Type} (c : Cfg α) (r : IterFns α β) (k : HasherFns α) :
    List BoxCall → M (BSt α) (List (Option (BoxRet β)))
  | [] => pure []
  | q :: qs => fun s =>
    match runBoxCall c r k q s with
    | .ok y s => (do pure (some y :: (← runBoxCalls c r k qs))) s
    | .panic s => (do pure (none :: (← runBoxCalls c r k qs))) s
    | .abort => .abort
    | .ub u => .ub u

end Lokky
