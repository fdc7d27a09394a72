import Verif.Model.Rc
import Verif.Model.Arc
import Verif.Model.Urc
import Verif.Model.Boxed

/-!
# Comparison, hashing and identity of `Box`, `Rc`, `Arc` and `Urc`

The functions of the value's type are parameters, `Rels`. A value behind a shared reference does not change
during a comparison, so that it is read once.
-/

namespace Lokky
variable {α H : Type}

/-- `PartialEq`, `PartialOrd`, `Ord` and `Hash` of the value's type. `H` is the state of the hasher. -/
structure Rels (α H : Type) where
  eq : α → α → Bool
  lt : α → α → Bool
  le : α → α → Bool
  gt : α → α → Bool
  ge : α → α → Bool
  partialCmp : α → α → Option Ordering
  cmp : α → α → Ordering
  hash : α → H → H

namespace Boxed
variable (c : Cfg α) (r : Rels α H)

/-- `partial_cmp` (boxed.rs 141-145). -/
def partialCmp : M (St (BoxH × BoxH) α) (Option Ordering) := do
  let a ← onPart Prod.fst (fun v p => (v, p.2)) (read c)
  let b ← onPart Prod.snd (fun v p => (p.1, v)) (read c)
  pure (r.partialCmp a b)

/-- `hash` (boxed.rs 125-129). -/
def hash (h : H) : M (BSt α) H := do
  let a ← read c
  pure (r.hash a h)

end Boxed

namespace Rc
variable (r : Rels α H)

/-- `eq` (rc.rs 229-233). -/
def eq (p q : Nat) : M (RcWorld α) Bool := do
  let a ← asRef p
  let b ← asRef q
  pure (r.eq a b)

/-- `partial_cmp` (rc.rs 237-241). -/
def partialCmp (p q : Nat) : M (RcWorld α) (Option Ordering) := do
  let a ← asRef p
  let b ← asRef q
  pure (r.partialCmp a b)

/-- `cmp` (rc.rs 243-247). -/
def cmp (p q : Nat) : M (RcWorld α) Ordering := do
  let a ← asRef p
  let b ← asRef q
  pure (r.cmp a b)

/-- `hash` (rc.rs 223-227). -/
def hash (p : Nat) (h : H) : M (RcWorld α) H := do
  let a ← asRef p
  pure (r.hash a h)

/-- What `Debug` of a `Weak` shows (rc.rs 324-336). -/
inductive WeakText (α : Type)
  /-- `(Weak null)` -/
  | null
  /-- `(Weak deallocated)` -/
  | deallocated
  /-- `(Weak(…))` with the value -/
  | value (a : α)
deriving DecidableEq, Repr

/-- `fmt` of `Debug` for `Weak` (rc.rs 324-336), with `is_dealloc` (rc.rs 27-29). -/
def weakDebug : Option Nat → M (RcWorld α) (WeakText α)
  | some p => do
    let b ← inner p
    if b.strong = 0 then pure .deallocated else pure (.value b.val)
  | none => pure .null

/-- `From<Box<T>>` (rc.rs 217-221). The memory of boxes is beside that of the `RcBox`es. -/
def fromBox (c : Cfg α) : M (BSt α × RcWorld α) Nat := fun s =>
  match Boxed.intoInner c s.1 with
  | .ok x t =>
    match new c x s.2 with
    | .ok p w => .ok p (t, w)
    | .panic w => .panic (t, w)
    | .abort => .abort
    | .ub u => .ub u
  | .panic t => .panic (t, s.2)
  | .abort => .abort
  | .ub u => .ub u

end Rc

namespace Arc
variable (r : Rels α H)

/-- `eq` (arc.rs 421-425). -/
def eq (p q : Nat) : M (ArcSys α) Bool := do
  let a ← data p
  let b ← data q
  pure (r.eq a b)

/-- `partial_cmp` (arc.rs 431-433). -/
def partialCmp (p q : Nat) : M (ArcSys α) (Option Ordering) := do
  let a ← data p
  let b ← data q
  pure (r.partialCmp a b)

/-- `lt` (arc.rs 435-437). -/
def lt (p q : Nat) : M (ArcSys α) Bool := do
  let a ← data p
  let b ← data q
  pure (r.lt a b)

/-- `le` (arc.rs 439-441). -/
def le (p q : Nat) : M (ArcSys α) Bool := do
  let a ← data p
  let b ← data q
  pure (r.le a b)

/-- `gt` (arc.rs 443-445). -/
def gt (p q : Nat) : M (ArcSys α) Bool := do
  let a ← data p
  let b ← data q
  pure (r.gt a b)

/-- `ge` (arc.rs 447-449). -/
def ge (p q : Nat) : M (ArcSys α) Bool := do
  let a ← data p
  let b ← data q
  pure (r.ge a b)

/-- `cmp` (arc.rs 452-456). -/
def cmp (p q : Nat) : M (ArcSys α) Ordering := do
  let a ← data p
  let b ← data q
  pure (r.cmp a b)

/-- `hash` (arc.rs 458-462). -/
def hash (p : Nat) (h : H) : M (ArcSys α) H := do
  let a ← data p
  pure (r.hash a h)

/-- `ptr_eq` (arc.rs 282-285), with `as_ptr` (arc.rs 254-256): the addresses of the values are compared. -/
def ptrEq (p q : Nat) : M (ArcSys α) Bool := do
  let _ ← obj p
  let _ ← obj q
  pure (p == q)

end Arc

namespace Urc
variable (r : Rels α H)

/-- `eq` (urc.rs 571-575). -/
def eq (f g : Nat) : M (UrcWorld α) Bool := do
  let a ← asRef f
  let b ← asRef g
  pure (r.eq a b)

/-- `partial_cmp` (urc.rs 581-583). -/
def partialCmp (f g : Nat) : M (UrcWorld α) (Option Ordering) := do
  let a ← asRef f
  let b ← asRef g
  pure (r.partialCmp a b)

/-- `lt` (urc.rs 585-587). -/
def lt (f g : Nat) : M (UrcWorld α) Bool := do
  let a ← asRef f
  let b ← asRef g
  pure (r.lt a b)

/-- `le` (urc.rs 589-591). -/
def le (f g : Nat) : M (UrcWorld α) Bool := do
  let a ← asRef f
  let b ← asRef g
  pure (r.le a b)

/-- `gt` (urc.rs 593-595). -/
def gt (f g : Nat) : M (UrcWorld α) Bool := do
  let a ← asRef f
  let b ← asRef g
  pure (r.gt a b)

/-- `ge` (urc.rs 597-599). -/
def ge (f g : Nat) : M (UrcWorld α) Bool := do
  let a ← asRef f
  let b ← asRef g
  pure (r.ge a b)

/-- `cmp` (urc.rs 602-606). -/
def cmp (f g : Nat) : M (UrcWorld α) Ordering := do
  let a ← asRef f
  let b ← asRef g
  pure (r.cmp a b)

/-- `hash` (urc.rs 608-612). -/
def hash (f : Nat) (h : H) : M (UrcWorld α) H := do
  let a ← asRef f
  pure (r.hash a h)

end Urc
end Lokky
