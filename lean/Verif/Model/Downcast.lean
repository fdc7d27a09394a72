import Verif.Model.Arc
import Verif.Model.Boxed
import Verif.Model.Rc

/-!
# `downcast` of `Box<dyn Any>`, `Rc<dyn Any>`, `Arc<dyn Any>` and `Urc<dyn Any>`

Types are numbers, as their `TypeId`s. The crate has no way to make a `dyn Any` handle out of a handle of a known type (there is no unsizing
conversion); here such handles are given.
-/

namespace Lokky
variable {α : Type}

/-- `Box<dyn Any>` (boxed.rs 7, 23): the pointer with, in place of the vtable, the type of the value. -/
structure AnyBox where
  box : BoxH
  ty : Nat

/-- Code that works on the value of a box, as code on the memory alone. -/
def BoxH.run {β : Type} (b : BoxH) (m : M (BSt α) β) : M (World α) β := fun w =>
  match m ⟨b, w⟩ with
  | .ok a s => .ok a s.w
  | .panic s => .panic s.w
  | .abort => .abort
  | .ub u => .ub u

/-- Dropping a `Box<dyn Any>` (ptr.rs 33-41, 241-245): destructor and layout are those of the type in the vtable. -/
def AnyBox.drop (cs : Nat → Cfg α) (b : AnyBox) : M (World α) Unit := b.box.run (Boxed.drop (cs b.ty))

/-- `ScopePtr::cast` (ptr.rs 68-77): the same address, allocator and marker; the old pointer is forgotten. -/
def AnyBox.cast (b : AnyBox) : BoxH := ⟨b.box.ptr, b.box.alloc, b.box.marker⟩

/-- `Box::downcast` to the type `t` (boxed.rs 23-31). -/
def AnyBox.downcast (t : Nat) (b : AnyBox) : Except AnyBox BoxH := if b.ty = t then .ok b.cast else .error b

/-- `Rc::downcast` to the type `t` (rc.rs 151-159); `ty` tells the type of a value. The pointer is copied without counting, and `self` is
dropped at the end of the function, where it was not returned; `none` is `Err(self)`. -/
def Rc.downcast (c : Cfg α) (ty : α → Nat) (t p : Nat) : M (RcWorld α) (Option Nat) := do
  let x ← Rc.asRef p
  if ty x = t then do
    Rc.drop c p
    pure (some p)
  else pure none

/-- `Rc::downcast` of the handle `h` of a client. The handle it returns, either way, keeps the name `h`. -/
def RcPool.downcast (c : Cfg α) (ty : α → Nat) (t h : Nat) : M (RcPool α) (Spec.RcOut α) := fun P =>
  match P.hands[h]? with
  | some (some (.rc p)) => RcPool.on (Rc.downcast c ty t p) (fun _ => P.hands) (P.hands.set h none) (fun r => .bool r.isSome) P
  | _ => .ok .unit P

/-- `Arc::downcast` to the type `t` of handle `h` (arc.rs 361-375): the pointer is copied, and `self` is forgotten. The handle that is
returned, either way, keeps the name `h`. No atomic operation is made, so this is one step. -/
def Arc.downcast (ty : α → Nat) (t h : Nat) : M (ArcSys α) Bool := fun s =>
  match s.hands[h]? with
  | some (some p) => (do
      let x ← Arc.data p
      pure (decide (ty x = t))) s
  | _ => .ok false s

/-- Words of a `ScopePtr` (ptr.rs 12-17): the address, with a vtable if `fat`, the allocator (`&dyn GlobalAlloc`), and the marker (scope.rs
19-34; `None` is a null address of the name). Structures of words have no padding. -/
def ptrWords (fat : Bool) : Nat := (if fat then 2 else 1) + 2 + 2

/-- Words of a `Fence<T>` (urc.rs 38-42): two counters and the pointer to the `Master<T>`, which is `fat` for `T = dyn Any`. -/
def fenceWords (fat : Bool) : Nat := 1 + 1 + ptrWords fat

/-- Releasing the fence of an `Urc` (urc.rs 503; ptr.rs 33-41, 241-245), of a known type or not (`fat`). `word` is the size of a word. -/
def Urc.freeAnyFence (word : Nat) (fat : Bool) (b : BoxH) : M (World α) Unit := rawDealloc (some b.ptr) b.alloc (word * fenceWords fat)

/-- The pointer to the fence that `Urc::downcast` makes where the type is right (urc.rs 429): `cast` as above. -/
def Urc.downcastFence (b : BoxH) : BoxH := ⟨b.ptr, b.alloc, b.marker⟩

end Lokky
