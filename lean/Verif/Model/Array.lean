import Verif.Model.Vec

/-!
# Arrays: `ScopePtr<[T]>` (ptr.rs)

`ScopePtr` is exported (lib.rs 8-9), so that `alloc_array_uninit`, `realloc_array`, the access through
`Deref` and the destructor are calls of the library like those of the collections.
-/

namespace Lokky

variable {α : Type}

/-- State of a `&mut self` method of `ScopePtr<[T]>`. -/
abbrev ASt (α : Type) := St Vec.BoxSliceH α

namespace Arr

variable (c : Cfg α)

/-- `alloc_array_uninit` (ptr.rs 251-262): `alloc_layout`, then `cast_to_slice` (ptr.rs 83-95). -/
def allocUninit (n : Nat) (m : Marker) : M (World α) (Except AllocErr Vec.BoxSliceH) := do
  match ← Vec.allocArrayUninit c n m with
  | .error e => pure (.error e)
  | .ok v => pure (.ok { ptr := v.ptr, len := v.cap, alloc := v.alloc, marker := v.marker })

/-- The array as a buffer: what `deref` and `deref_mut` give access to (ptr.rs 19-31), or `slice_ref` and
`slice_mut` (ptr.rs 102-119) with the length of the array. -/
def onSlots {β : Type} (m : M (Buf α) β) : M (ASt α) β := fun s =>
  match Vec.onBuf c m ⟨Vec.ofBoxedSlice s.self, s.w⟩ with
  | .ok a t => .ok a ⟨s.self, t.w⟩
  | .panic t => .panic ⟨s.self, t.w⟩
  | .abort => .abort
  | .ub u => .ub u

/-- `a[i]` (ptr.rs 19-25; core, `Index` of slices). -/
def get (i : Nat) : M (ASt α) α := do
  let s ← M.get
  assert (i < s.self.len)
  onSlots c (Buf.read c i)

/-- `a[i] = x` (ptr.rs 27-31; core, `IndexMut` of slices): if the index is out of bounds, `x` is dropped
while unwinding; the old value is dropped and the new one written, also if the destructor of the old one
panics. -/
def assign (i : Nat) (x : α) : M (ASt α) Unit := do
  let s ← M.get
  (assert (i < s.self.len)).onUnwind (liftW (World.onLog (dropVal c x)))
  onSlots c ((Buf.dropAt c i).andAlways (Buf.write c i x))

/-- `a.as_mut_ptr().add(i).write(x)`, the way to initialise an element: nothing is dropped. -/
def put (i : Nat) (x : α) : M (ASt α) Unit := onSlots c (Buf.write c i x)

/-- `realloc_array` (ptr.rs 269-284): the layout given back is that of the array, the new size is an
unchecked product. -/
def realloc (n : Nat) : M (ASt α) (Except AllocErr Unit) := do
  let s ← M.get
  let bytes ← umul c n c.size
  match ← liftW (rawRealloc c s.self.ptr s.self.alloc (s.self.len * c.size) bytes) with
  | none => pure (.error .allocError)
  | some p => do
    M.modify fun s => { s with self := { s.self with ptr := some p, len := n } }
    pure (.ok ())

/-- `drop` (ptr.rs 33-41): drop glue of the slice, then deallocation. -/
def drop (b : Vec.BoxSliceH) : M (World α) Unit := Vec.boxSliceDrop c b

end Arr

/-- A call on an array. -/
inductive ArrCmd (α : Type) where
  | put (i : Nat) (x : α)
  | get (i : Nat)
  | assign (i : Nat) (x : α)
  | realloc (n : Nat)

/-- What a call returns. -/
inductive ArrRet (α : Type) where
  | unit
  | val (x : α)
  | err (e : AllocErr)
deriving DecidableEq

/-- Run a call. -/
def runArr (c : Cfg α) : ArrCmd α → M (ASt α) (ArrRet α)
  | .put i x => do Arr.put c i x; pure .unit
  | .get i => do let x ← Arr.get c i; pure (.val x)
  | .assign i x => do Arr.assign c i x; pure .unit
  | .realloc n => do
    match ← Arr.realloc c n with
    | .ok _ => pure .unit
    | .error e => pure (.err e)

/-- Run a program: panics are caught and the program goes on. The answers are recorded; `none` = the call
panicked. -/
def runArrs (c : Cfg α) : List (ArrCmd α) → M (ASt α) (List (Option (ArrRet α)))
  | [] => pure []
  | k :: ks => fun s =>
    match runArr c k s with
    | .ok r s' => (runArrs c ks >>= fun rs => pure (some r :: rs)) s'
    | .panic s' => (runArrs c ks >>= fun rs => pure (none :: rs)) s'
    | .abort => .abort
    | .ub u => .ub u

end Lokky
