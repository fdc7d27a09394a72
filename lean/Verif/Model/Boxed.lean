import Verif.Model.Vec

/-!
# `Box<T>` (boxed.rs) and `ScopePtr<T>` of a sized `T` (ptr.rs)
-/

namespace Lokky

variable {α : Type}

/-- `Box<T>` (boxed.rs 7) over `ScopePtr<T>` (ptr.rs 12-17): address, allocator and marker. -/
structure BoxH where
  ptr : Nat
  alloc : Nat
  marker : Marker

/-- State of a `&mut self` method of `Box`. -/
abbrev BSt (α : Type) := St BoxH α

namespace Boxed

variable (c : Cfg α)

/-- The box seen as a buffer of one element: what `deref`/`deref_mut` give access to
(ptr.rs 19-31; boxed.rs 33-55, 69-81). -/
def view (b : BoxH) : VecH := ⟨some b.ptr, 1, b.alloc, b.marker, 1⟩

/-- Access to the slot behind the pointer (ptr.rs 19-31). -/
def onSlot {β : Type} (m : M (Buf α) β) : M (BSt α) β := fun s =>
  match Vec.onBuf c m ⟨view s.self, s.w⟩ with
  | .ok a t => .ok a ⟨s.self, t.w⟩
  | .panic t => .panic ⟨s.self, t.w⟩
  | .abort => .abort
  | .ub u => .ub u

/-- `ScopePtr::dealloc` (ptr.rs 241-245): the layout is that of one `T`. -/
def dealloc : M (BSt α) Unit := do
  let s ← M.get
  liftW (rawDealloc (some s.self.ptr) s.self.alloc c.size)

/-- `drop` (ptr.rs 33-41): the value is dropped, then the memory is released. If the destructor
panics the memory stays. -/
def drop : M (BSt α) Unit := do
  onSlot c (Buf.dropAt c 0)
  dealloc c

/-- `*b = x`: the old value is dropped, the new one written; it is written also if the destructor
of the old one panics. -/
def assign (x : α) : M (BSt α) Unit :=
  onSlot c ((Buf.dropAt c 0).andAlways (Buf.write c 0 x))

/-- Reading the value through the box (boxed.rs 69-75). -/
def read : M (BSt α) α := onSlot c (Buf.read c 0)

/-- `ScopePtr::alloc` (ptr.rs 181-185) with `alloc_layout` (ptr.rs 188-199). On refusal the value
is dropped when the function returns. `*ptr = value` is an assignment: it drops what is in the fresh
memory. If that panics the new pointer is dropped as a local. -/
def tryNew (x : α) (m : Marker) : M (World α) (Except AllocErr BoxH) := do
  let w ← M.get
  let a := w.allocFor m
  match ← rawAlloc c a c.size with
  | none => do
    World.onLog (dropVal c x)
    pure (.error .allocError)
  | some p => do
    let (_, b) ← withLocal ⟨p, a, m⟩ (drop c) (assign c x)
    pure (.ok b)

/-- `new_with` (boxed.rs 14-16). -/
def newWith (x : α) (m : Marker) : M (World α) BoxH := do
  Vec.unwrap (← tryNew c x m)

/-- `new` (boxed.rs 10-12). -/
def new (x : α) : M (World α) BoxH := newWith c x none

/-- `into_inner` (boxed.rs 18-20; ptr.rs 202-208): `self` is a by-value parameter and is dropped at
the end of the function. -/
def intoInner : M (BSt α) α := do
  let v ← read c
  dealloc c
  drop c
  pure v

/-- Assignments through the box, one after the other. -/
def assigns : List α → M (BSt α) Unit
  | [] => pure ()
  | x :: xs => do assign c x; assigns xs

/-- `eq` (boxed.rs 117-121), with `==` of the values. -/
def eq (e : α → α → Bool) : M (St (BoxH × BoxH) α) Bool := do
  let a ← onPart Prod.fst (fun v p => (v, p.2)) (read c)
  let b ← onPart Prod.snd (fun v p => (p.1, v)) (read c)
  pure (e a b)

/-- `cmp` (boxed.rs 147-151), with the order of the values. -/
def cmp (o : α → α → Ordering) : M (St (BoxH × BoxH) α) Ordering := do
  let a ← onPart Prod.fst (fun v p => (v, p.2)) (read c)
  let b ← onPart Prod.snd (fun v p => (p.1, v)) (read c)
  pure (o a b)

end Boxed
end Lokky
