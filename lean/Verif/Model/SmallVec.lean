import Verif.Model.Vec

/-!
# `SmallVec<T, N>` (small_vec.rs)

`StackVec` functions are written on `Buf`, whose `cap` is `N`; `SmallVec` functions dispatch
between the inline buffer and a heap `Vec`.
-/

namespace Lokky

variable {α : Type}

/-! ## `StackVec` -/

namespace Stack
variable (c : Cfg α)

/-- `StackVec::clear` (small_vec.rs 154-161): the length is reset first. -/
def clear : M (Buf α) Unit := do
  let n ← Buf.getLen
  Buf.setLen c 0
  Buf.dropLoop c 0 n

/-- `StackVec::unchecked_push` (small_vec.rs 169-180). If the assertion panics the value is
dropped. -/
def uncheckedPush (a : α) : M (Buf α) Unit := do
  (do
    let b ← M.get
    assert (b.len ≠ b.cap) : M (Buf α) Unit).onUnwind (Buf.onLog (dropVal c a))
  let n ← Buf.getLen
  Buf.write c n a
  Buf.setLen c (n + 1)

/-- `StackVec::pop` (small_vec.rs 183-194). -/
def pop : M (Buf α) (Option α) := do
  let n ← Buf.getLen
  if n = 0 then pure none
  else do
    uncheckedIndex c (n - 1) n
    let a ← Buf.read c (n - 1)
    Buf.setLen c (n - 1)
    pure (some a)

/-- `StackVec::unchecked_insert` (small_vec.rs 196-206): the index is checked in debug builds only;
`get_unchecked_mut(index)` is applied to the slice of the current length. -/
def uncheckedInsert (i : Nat) (a : α) : M (Buf α) Unit := do
  let n ← Buf.getLen
  (debugAssert c (i ≤ n)).onUnwind (Buf.onLog (dropVal c a))
  uncheckedIndex c i n
  let k ← usub c n i
  Buf.copy c i (i + 1) k
  Buf.write c i a
  Buf.setLen c (n + 1)

/-- `StackVec::remove` and `unchecked_remove` (small_vec.rs 209-232): one element more than the
number of those behind the removed one is moved. -/
def remove (i : Nat) : M (Buf α) α := do
  let n ← Buf.getLen
  assert (i < n)
  debugAssert c (i < n)
  uncheckedIndex c i n
  let a ← Buf.read c i
  Buf.copy c (i + 1) i (n - i)
  Buf.setLen c (n - 1)
  pure a

/-- `StackVec::truncate` (small_vec.rs 247-260). The loop runs over `old_len..len`, which is empty
since `len < old_len`. -/
def truncate (k : Nat) : M (Buf α) Unit := do
  let n ← Buf.getLen
  if k < n then do
    Buf.setLen c k
    Buf.dropLoop c n (k - n)
  else pure ()

/-- `StackVec::swap_remove` (small_vec.rs 262-278). -/
def swapRemove (i : Nat) : M (Buf α) α := do
  let n ← Buf.getLen
  assert (i < n)
  uncheckedIndex c i n
  let a ← Buf.read c i
  uncheckedIndex c (n - 1) n
  Buf.copyNonoverlapping c (n - 1) i 1
  Buf.setLen c (n - 1)
  pure a

/-- `<StackVec as Vecx>::push` (small_vec.rs 799-802). -/
def push (a : α) : M (Buf α) Unit := do
  (do
    let b ← M.get
    debugAssert c (b.len ≠ b.cap) : M (Buf α) Unit).onUnwind (Buf.onLog (dropVal c a))
  uncheckedPush c a

/-- `<StackVec as Vecx>::reserve_exact` (small_vec.rs 805-807). -/
def reserveExact (k : Nat) : M (Buf α) Unit := do
  let b ← M.get
  debugAssert c (b.len + k ≤ b.cap)

/-- Loop of `do_resize` for `resize_with` (vec.rs 670-675). -/
def pushCalls (f : Nat → Option α) : (k n : Nat) → M (Buf α) Unit
  | _, 0 => pure ()
  | k, n + 1 =>
    match f k with
    | none => M.boom
    | some a => do push c a; pushCalls f (k + 1) n

/-- `StackVec::resize_with` (small_vec.rs 302-304; vec.rs 662-677). -/
def resizeWith (k : Nat) (f : Nat → Option α) : M (Buf α) Unit := do
  let n ← Buf.getLen
  if k ≤ n then truncate c k
  else do
    reserveExact c (k - n)
    pushCalls c f 0 (k - n)

/-- Loop of `do_resize` for `resize` (vec.rs 670-672). -/
def pushCopies (a : α) : Nat → M (Buf α) Unit
  | 0 => pure ()
  | n + 1 => do
    let b ← Buf.onLog (cloneVal c a)
    push c b
    pushCopies a n

/-- `StackVec::resize` (small_vec.rs 295-300; vec.rs 662-677, 691-700). -/
def resize (k : Nat) (a : α) : M (Buf α) Unit := do
  let n ← Buf.getLen
  if k ≤ n then (truncate c k).andAlways (Buf.onLog (dropVal c a))
  else do
    (do reserveExact c (k - n)
        pushCopies c a (k - n - 1) : M (Buf α) Unit).onUnwind (Buf.onLog (dropVal c a))
    push c a

/-- `StackVec::drop` (small_vec.rs 725-731): a panic ends the loop. -/
def drop : M (Buf α) Unit := do
  let n ← Buf.getLen
  Buf.dropLoop c 0 n

/-- `v[i]` (small_vec.rs 900-906 through `as_slice`, 134-136). -/
def index (i : Nat) : M (Buf α) α := do
  let n ← Buf.getLen
  assert (i < n)
  Buf.read c i

/-- `v[i] = a` (small_vec.rs 908-912 through `as_mut_slice`, 150-152); as `Vec.indexSet`. -/
def indexSet (i : Nat) (a : α) : M (Buf α) Unit := do
  (do
    let n ← Buf.getLen
    assert (i < n) : M (Buf α) Unit).onUnwind (Buf.onLog (dropVal c a))
  (Buf.dropAt c i).andAlways (Buf.write c i a)

/-- The contents as seen through `as_slice` (small_vec.rs 134-136). -/
def asSlice : M (Buf α) (List α) := do
  let n ← Buf.getLen
  Buf.readSlice c 0 n

end Stack

/-! ## `SmallVec` -/

/-- `Storage` (small_vec.rs 26-29) with `StackVec` (31-34) spelled out. -/
inductive Store (α : Type) where
  | stack (slots : List (Option α)) (len : Nat)
  | heap (v : VecH)

/-- `SmallVec<T, N>` (small_vec.rs 21-24). `n` is the const parameter `N`. -/
structure SmallH (α : Type) where
  n : Nat
  store : Store α
  marker : Marker

/-- State of a `&mut self` method of `SmallVec`. -/
abbrev SSt (α : Type) := St (SmallH α) α

/-- The state after the inline buffer became `b`. -/
def St.putStack (s : SSt α) (b : Buf α) : SSt α :=
  ⟨{ s.self with store := .stack b.slots b.len }, { s.w with log := b.log }⟩

/-- The state after the heap vector and the world became `t`. -/
def St.putHeap (s : SSt α) (t : VSt α) : SSt α :=
  ⟨{ s.self with store := .heap t.self }, t.w⟩

/-- The inline buffer with the given contents. -/
def St.stackBuf (s : SSt α) (slots : List (Option α)) (len : Nat) : Buf α :=
  ⟨slots, s.self.n, len, s.w.log⟩

namespace Small
variable (c : Cfg α)

/-- `redirect_fn!` (small_vec.rs 38-96): `f` on the inline vector or `g` on the heap vector. -/
def onStore {β : Type} (f : M (Buf α) β) (g : M (VSt α) β) : M (SSt α) β := fun s =>
  match s.self.store with
  | .stack slots len =>
    match f (s.stackBuf slots len) with
    | .ok a b => .ok a (s.putStack b)
    | .panic b => .panic (s.putStack b)
    | .abort => .abort
    | .ub u => .ub u
  | .heap v =>
    match g ⟨v, s.w⟩ with
    | .ok a t => .ok a (s.putHeap t)
    | .panic t => .panic (s.putHeap t)
    | .abort => .abort
    | .ub u => .ub u

/-- The same code on the buffer, wherever it is (small_vec.rs 357-379: `set_len`, `as_ptr`,
`as_mut_ptr`, `as_slice_with_len{,_mut}`). -/
def onAny {β : Type} (m : M (Buf α) β) : M (SSt α) β := onStore m (Vec.onBuf c m)

/-- `capacity` (small_vec.rs 357, 110-113). -/
def capacity (s : SmallH α) : Nat :=
  match s.store with
  | .stack _ _ => s.n
  | .heap v => Vec.capacity c v

/-- `len` (small_vec.rs 358, 116-118). -/
def lenOf (s : SmallH α) : Nat :=
  match s.store with
  | .stack _ len => len
  | .heap v => v.len

/-- `len` as a call. -/
def len : M (SSt α) Nat := M.gets fun s => lenOf s.self

/-- The slots behind `as_ptr` (small_vec.rs 371). -/
def slotsOf (s : SmallH α) (w : World α) : List (Option α) :=
  match s.store with
  | .stack slots _ => slots
  | .heap v => w.slots v.ptr

/-- `is_heap` (small_vec.rs 420-426). -/
def isHeap (s : SmallH α) : Bool :=
  match s.store with
  | .stack _ _ => false
  | .heap _ => true

/-- `with_marker` (small_vec.rs 349-354) with `StackVec::new` (101-107). -/
def withMarker (n : Nat) (m : Marker) : SmallH α :=
  { n, store := .stack (List.replicate n none) 0, marker := m }

/-- `new` (small_vec.rs 313-315), `default` (811-815). -/
def new (n : Nat) : M (World α) (SmallH α) := pure (withMarker n none)

/-- `try_with_capacity_and_marker` (small_vec.rs 318-331). -/
def tryWithCapacityAndMarker (n k : Nat) (m : Marker) :
    M (World α) (Except AllocErr (SmallH α)) := do
  if n < k then
    match ← Vec.tryWithCapacityAndMarker c k m with
    | .error e => pure (.error e)
    | .ok v => pure (.ok { n, store := .heap v, marker := m })
  else pure (.ok (withMarker n m))

/-- `with_capacity_and_marker` (small_vec.rs 334-336). -/
def withCapacityAndMarker (n k : Nat) (m : Marker) : M (World α) (SmallH α) := do
  Vec.unwrap (← tryWithCapacityAndMarker c n k m)

/-- `with_capacity` (small_vec.rs 339-346). -/
def withCapacity (n k : Nat) : M (World α) (SmallH α) := withCapacityAndMarker c n k none

/-- Drop glue: `StackVec::drop` (small_vec.rs 725-731) or `Vec::drop` (vec.rs 977-990). -/
def drop : M (SSt α) Unit := onStore (Stack.drop c) (Vec.drop c)

/-! ### Capacity -/

/-- `overflow_guarded_add` (vec.rs 1216-1223). -/
def overflowGuardedAdd (a b : Nat) : M (SSt α) Nat :=
  if a + b ≤ c.usizeMax then pure (a + b) else M.boom

/-- `try_move_to_heap_and_reserve_exact` (small_vec.rs 438-464). The length computation is an
unchecked addition. The inline vector that is overwritten at the end has length 0, so dropping it
does nothing. In the heap case `reserve_exact` panics instead of returning an error. -/
def tryMoveToHeap (additional : Nat) : M (SSt α) (Except AllocErr Unit) := do
  let s ← M.get
  match s.self.store with
  | .stack slots len => do
    let wanted ← uadd c len additional
    let reserve := max wanted (Vec.minNonZeroCap c)
    match ← liftW (Vec.tryWithCapacityAndMarker c reserve s.self.marker) with
    | .error e => pure (.error e)
    | .ok v => do
      let (_, v) ← liftW (withLocal v (Vec.drop c) (Vec.onBuf c do
        Buf.copyFrom c slots 0 len
        Buf.setLen c len))
      M.modify fun s => { s with self := { s.self with store := .heap v } }
      pure (.ok ())
  | .heap _ => do
    onStore (pure ()) (Vec.reserveExact c additional)
    pure (.ok ())

/-- `move_to_heap` (small_vec.rs 434-436). -/
def moveToHeap : M (SSt α) Unit := do
  Vec.unwrap (← tryMoveToHeap c 0)

/-- `try_reserve_exact` (small_vec.rs 466-479). -/
def tryReserveExact (additional : Nat) : M (SSt α) (Except AllocErr Unit) := do
  let s ← M.get
  match s.self.store with
  | .stack _ _ => do
    let wanted ← overflowGuardedAdd c (lenOf s.self) additional
    if capacity c s.self < wanted then tryMoveToHeap c additional else pure (.ok ())
  | .heap _ => onStore (pure (.ok ())) (Vec.tryReserveExact c additional)

/-- `try_reserve` (small_vec.rs 482-488). -/
def tryReserve (additional : Nat) : M (SSt α) (Except AllocErr Unit) := do
  let s ← M.get
  let wanted ← overflowGuardedAdd c (capacity c s.self) additional
  let wanted := max (Vec.minNonZeroCap c) wanted
  tryReserveExact c (wanted - capacity c s.self)

/-- `reserve` (small_vec.rs 491-493). -/
def reserve (additional : Nat) : M (SSt α) Unit := do
  Vec.unwrap (← tryReserve c additional)

/-- `reserve_exact` (small_vec.rs 496-498). -/
def reserveExact (additional : Nat) : M (SSt α) Unit := do
  Vec.unwrap (← tryReserveExact c additional)

/-- `shrink_to_fit` (small_vec.rs 367, 234-236). -/
def shrinkToFit : M (SSt α) Unit := onStore (pure ()) (Vec.shrinkToFit c)

/-- `shrink_to` (small_vec.rs 368, 238-240). -/
def shrinkTo (k : Nat) : M (SSt α) Unit := onStore (pure ()) (Vec.shrinkTo c k)

/-- `try_move_to_stack` (small_vec.rs 500-529); `false` is `Err(LenTooBigError)`. The elements are
copied inline, the storage is swapped, then the heap vector is given to `dealloc_without_drop`. -/
def tryMoveToStack : M (SSt α) Bool := do
  let s ← M.get
  match s.self.store with
  | .stack _ _ => pure true
  | .heap v =>
    if v.len ≤ s.self.n then do
      M.modify fun s => { s with self := { s.self with
        store := .stack (List.replicate s.self.n none) 0 } }
      onStore (do
        Buf.copyFrom c (s.w.slots v.ptr) 0 v.len
        Buf.setLen c v.len) (pure ())
      let _ ← liftW (withLocal v (pure ()) (Vec.deallocWithoutDrop c))
      pure true
    else pure false

/-! ### Elements -/

/-- `clear` (small_vec.rs 362). -/
def clear : M (SSt α) Unit := onStore (Stack.clear c) (Vec.clear c)

/-- `pop` (small_vec.rs 369). -/
def pop : M (SSt α) (Option α) := onStore (Stack.pop c) (Vec.pop c)

/-- `remove` (small_vec.rs 370). -/
def remove (i : Nat) : M (SSt α) α := onStore (Stack.remove c i) (Vec.remove c i)

/-- `truncate` (small_vec.rs 374). -/
def truncate (k : Nat) : M (SSt α) Unit := onStore (Stack.truncate c k) (Vec.truncate c k)

/-- `swap_remove` (small_vec.rs 375). -/
def swapRemove (i : Nat) : M (SSt α) α := onStore (Stack.swapRemove c i) (Vec.swapRemove c i)

/-- `resize_with` (small_vec.rs 377). -/
def resizeWith (k : Nat) (f : Nat → Option α) : M (SSt α) Unit :=
  onStore (Stack.resizeWith c k f) (Vec.resizeWith c k f)

/-- `retain` (small_vec.rs 378, 306-308). -/
def retain (f : Nat → α → Option Bool) : M (SSt α) Unit := onAny c (Vec.retainBuf c f)

/-- `dedup_by` (small_vec.rs 376, 287-289). -/
def dedupBy (same : Nat → α → α → Option (Bool × α × α)) : M (SSt α) Unit :=
  onAny c (Vec.dedupByBuf c same)

/-- `dedup` (small_vec.rs 381-391, 280-285). -/
def dedup (eq : α → α → Bool) : M (SSt α) Unit := dedupBy c fun _ a b => some (eq a b, a, b)

/-- `dedup_by_key` (small_vec.rs 394-400, 291-293). -/
def dedupByKey {K : Type} [DecidableEq K] (key : Nat → α → Option (K × α)) : M (SSt α) Unit :=
  onAny c (Vec.dedupByKeyBuf c key)

/-- `resize` (small_vec.rs 403-417): reserves `len - N` more slots if `len > N`, then resizes
whichever storage is in use. If reserving panics the value is dropped. -/
def resize (k : Nat) (a : α) : M (SSt α) Unit := do
  (do
    let s ← M.get
    if s.self.n < k then reserve c (k - s.self.n) else pure ()
    : M (SSt α) Unit).onUnwind (onLog (dropVal c a))
  onStore (Stack.resize c k a) (Vec.resize c k a)

/-- `push` (small_vec.rs 568-577). If reserving panics the value is dropped. -/
def push (a : α) : M (SSt α) Unit := do
  (reserve c 1).onUnwind (onLog (dropVal c a))
  onStore (Stack.uncheckedPush c a) (Vec.push c a)

/-- `insert` (small_vec.rs 580-589). -/
def insert (i : Nat) (a : α) : M (SSt α) Unit := do
  (reserve c 1).onUnwind (onLog (dropVal c a))
  onStore (Stack.uncheckedInsert c i a) (Vec.insert c i a)

/-- `v[i]` by shared reference (small_vec.rs 900-906). -/
def index (i : Nat) : M (SSt α) α := onStore (Stack.index c i) (Vec.index c i)

/-- `v[i] = a` (small_vec.rs 908-912). -/
def indexSet (i : Nat) (a : α) : M (SSt α) Unit :=
  onStore (Stack.indexSet c i a) (Vec.indexSet c i a)

/-- `as_slice` (small_vec.rs 365). -/
def asSlice : M (SSt α) (List α) := onStore (Stack.asSlice c) (Vec.asSlice c)

/-- `append` (small_vec.rs 553-565) on `(self, other)`. -/
def append : M (St (SmallH α × SmallH α) α) Unit := do
  let s ← M.get
  let n := lenOf s.self.2
  onPart Prod.fst (fun v p => (v, p.2)) (reserve c n)
  let s ← M.get
  onPart Prod.fst (fun v p => (v, p.2)) (onAny c do
    let k ← Buf.getLen
    Buf.copyFrom c (slotsOf s.self.2 s.w) k n
    Buf.setLen c (k + n))
  onPart Prod.snd (fun v p => (p.1, v)) (onAny c (Buf.setLen c 0))

/-- The loop of `extend_from_slice` (small_vec.rs 618-620). -/
def pushClones : List α → M (SSt α) Unit
  | [] => pure ()
  | a :: l => do
    let b ← onLog (cloneVal c a)
    push c b
    pushClones l

/-- `extend_from_slice` (small_vec.rs 613-621). -/
def extendFromSlice (l : List α) : M (SSt α) Unit := do
  reserve c l.length
  pushClones c l

/-- Loop of `extend` (small_vec.rs 990-992): on unwinding the items not yet yielded are dropped with
the iterator. -/
def pushItems (boom : Bool) : List α → M (SSt α) Unit
  | [] => if boom then M.boom else pure ()
  | a :: l => do
    (push c a).onUnwind (onLog (dropVals c l))
    pushItems boom l

/-- `Extend<T>::extend` (small_vec.rs 986-994). -/
def extendFromIter (it : Iter α) : M (SSt α) Unit := do
  (reserve c it.hint).onUnwind (onLog (dropVals c it.items))
  pushItems c it.boom it.items

/-- `split_off_into` (small_vec.rs 628-638) into a vector of inline size `n'`; `split_off` (624-626)
is the case `n' = N`. `self[at]` panics for `at >= len`. -/
def splitOffInto (n' k : Nat) : M (SSt α) (SmallH α) := do
  let s ← M.get
  assert (k < lenOf s.self)
  let count := lenOf s.self - k
  let r ← liftW (withCapacity c n' count)
  let s ← M.get
  let (_, r) ← liftW (withLocal r (drop c)
    (onAny c (Buf.copyFrom c ((slotsOf s.self s.w).drop k) 0 count)))
  onAny c (do
    let m ← Buf.getLen
    Buf.setLen c (m - count))
  let (_, r) ← liftW (withLocal r (drop c) (onAny c (Buf.setLen c count)))
  pure r

/-- `drain` (small_vec.rs 609-611) used as `vec.drain(range).collect()` does. -/
def drainAll (lo hi : Vec.Bnd) : M (SSt α) (List α) := onAny c do
  let d ← Vec.drainNew c lo hi
  let l ← Buf.readSlice c d.off d.cnt
  Vec.drainDrop c { d with off := d.off + d.cnt, cnt := 0 }
  pure l

/-! ### Conversions -/

/-- `into_vec` (small_vec.rs 542-550). The vector is consumed; if moving panics it is dropped. -/
def intoVec (v : SmallH α) : M (World α) VecH := do
  let (_, v) ← withLocal v (drop c) (moveToHeap c)
  match v.store with
  | .heap v => pure v
  | .stack _ _ => M.boom

/-- `into_boxed_slice` (small_vec.rs 532-540). -/
def intoBoxedSlice (v : SmallH α) : M (World α) Vec.BoxSliceH := do
  let v ← intoVec c v
  Vec.intoBoxedSlice c v

/-- `From<&[T]>` (small_vec.rs 920-926); `From<&mut [T]>` (928-932) and `clone` (867-872) are the
same. -/
def fromSlice (n : Nat) (l : List α) : M (World α) (SmallH α) := do
  let v ← withCapacity c n l.length
  let (_, v) ← withLocal v (drop c) (extendFromSlice c l)
  pure v

/-- `From<[T; L]>` (small_vec.rs 934-957): in the inline case the elements are copied, but the length
stays 0. -/
def fromArray (n : Nat) (l : List α) : M (World α) (SmallH α) := do
  if l.length ≤ n then do
    let (_, v) ← withLocal (withMarker n none) (drop c)
      (onStore (Buf.copyFrom c (l.map some) 0 l.length) (pure ()))
    pure v
  else do
    let v ← Vec.fromArray c l
    pure { n, store := .heap v, marker := none }

/-- `From<Vec<T>>` (small_vec.rs 960-968). -/
def fromVec (n : Nat) (v : VecH) : SmallH α := { n, store := .heap v, marker := v.marker }

/-- `From<Box<[T]>>` (small_vec.rs 970-974). -/
def ofBoxedSlice (n : Nat) (b : Vec.BoxSliceH) : SmallH α := fromVec n (Vec.ofBoxedSlice b)

/-- `from_iter` (small_vec.rs 996-1002). -/
def fromIter (n : Nat) (it : Iter α) : M (World α) (SmallH α) := do
  let v ← new n
  let (_, v) ← withLocal v (drop c) (extendFromIter c it)
  pure v

end Small
end Lokky
