import Verif.Model.Mem

/-!
# `Vec<T>` (vec.rs)

Every function of `impl Vec` that touches elements or memory. Functions that move elements inside
the current buffer are written on `Buf`, the others on the vector header and the world.
-/

namespace Lokky

variable {α : Type}

/-! ## User callbacks -/

/-- `Clone::clone` on an element. -/
def cloneVal (c : Cfg α) (a : α) : M (Log α) α := fun g =>
  let g' := { g with calls := g.calls + 1 }
  match c.clone g.calls a with
  | none => .panic g'
  | some b => .ok b g'

/-- Run code on the log part of the world. -/
def World.onLog {β : Type} (m : M (Log α) β) : M (World α) β := fun w =>
  match m w.log with
  | .ok a g => .ok a { w with log := g }
  | .panic g => .panic { w with log := g }
  | .abort => .abort
  | .ub u => .ub u

/-- Run code on the log, whatever the object is. -/
def onLog {S β : Type} (m : M (Log α) β) : M (St S α) β := liftW (World.onLog m)

/-- An iterator passed by the caller: the items it will yield, the lower bound of its `size_hint`
(which may be wrong), and whether it panics instead of ending. It owns its items: those not yet
yielded are dropped with it. -/
structure Iter (α : Type) where
  items : List α
  hint : Nat
  boom : Bool

/-! ## The header -/

/-- `Vec<T>` (vec.rs 11-14) over `ScopePtr<[T]>` (ptr.rs 12-17). `ptr = none` is the dangling
pointer; `cap` is the length stored in the fat pointer. -/
structure VecH where
  ptr : Option Nat
  cap : Nat
  alloc : Nat
  marker : Marker
  len : Nat

/-- State of a `&mut self` method of `Vec`. -/
abbrev VSt (α : Type) := St VecH α

namespace Vec

variable (c : Cfg α)

/-- `MIN_NON_ZERO_CAP` (vec.rs 22-28). -/
def minNonZeroCap : Nat := if c.size = 1 then 8 else if c.size ≤ 1024 then 4 else 1

/-- `capacity` (vec.rs 90-96). -/
def capacity (v : VecH) : Nat := if c.size = 0 then c.usizeMax else v.cap

/-- Access to the current buffer through the pointer: the code `m` sees the slots of the block the
vector points to (none if it is dangling or released), the capacity and the length (vec.rs 127-156,
`as_slice_with_len{,_mut}`, `as_slice`, `as_mut_slice`; 891-903 `deref`, `deref_mut`). -/
def onBuf {β : Type} (m : M (Buf α) β) : M (VSt α) β := fun s =>
  let back (b : Buf α) : VSt α :=
    ⟨{ s.self with len := b.len }, { s.w.setSlots s.self.ptr b.slots with log := b.log }⟩
  match m ⟨s.w.slots s.self.ptr, capacity c s.self, s.self.len, s.w.log⟩ with
  | .ok a b => .ok a (back b)
  | .panic b => .panic (back b)
  | .abort => .abort
  | .ub u => .ub u

/-- `len` (vec.rs 99-101). -/
def len : M (VSt α) Nat := M.gets (·.self.len)

/-- `with_marker` (vec.rs 36-48), with `ScopePtr::dangling` (ptr.rs 216-223) and `cast_to_slice`
(ptr.rs 83-95). The allocator is selected with the marker, but the pointer is created with the
default marker (vec.rs 43). -/
def withMarker (m : Marker) : M (World α) VecH := fun w =>
  .ok { ptr := none, cap := 0, alloc := w.allocFor m, marker := none, len := 0 } w

/-- `new` (vec.rs 31-33), `default` (vec.rs 880-882). -/
def new : M (World α) VecH := withMarker none

/-- `ScopePtr::alloc_array_uninit` (ptr.rs 251-262) with `alloc_layout` (ptr.rs 188-199). -/
def allocArrayUninit (n : Nat) (m : Marker) : M (World α) (Except AllocErr VecH) := do
  if ¬ c.Fits n then pure (.error .capacityOverflow)
  else
    let w ← M.get
    let a := w.allocFor m
    match ← rawAlloc c a (n * c.size) with
    | none => pure (.error .allocError)
    | some p => pure (.ok { ptr := some p, cap := n, alloc := a, marker := m, len := 0 })

/-- `try_with_capacity_and_marker` (vec.rs 66-82). -/
def tryWithCapacityAndMarker (n : Nat) (m : Marker) : M (World α) (Except AllocErr VecH) := do
  if n = 0 ∨ c.size = 0 then
    let v ← withMarker m
    pure (.ok v)
  else allocArrayUninit c n m

/-- `Result::unwrap`. -/
def unwrap {σ β : Type} (r : Except AllocErr β) : M σ β :=
  match r with
  | .ok b => pure b
  | .error _ => M.boom

/-- `with_capacity_and_marker` (vec.rs 56-58); `with_capacity` (51-53) is the marker-free case. -/
def withCapacityAndMarker (n : Nat) (m : Marker) : M (World α) VecH := do
  unwrap (← tryWithCapacityAndMarker c n m)

/-- `with_capacity` (vec.rs 51-53, 61-63). -/
def withCapacity (n : Nat) : M (World α) VecH := withCapacityAndMarker c n none

/-- `ScopePtr::dealloc` on the buffer (ptr.rs 241-245): the layout is that of a slice of `cap`
elements. -/
def dealloc : M (VSt α) Unit := do
  let s ← M.get
  liftW (rawDealloc s.self.ptr s.self.alloc (s.self.cap * c.size))

/-- `drop` (vec.rs 977-990). -/
def drop : M (VSt α) Unit := do
  let s ← M.get
  if 0 < capacity c s.self then do
    onBuf c (Buf.dropLoop c 0 s.self.len)
    dealloc c
  else pure ()

/-! ## Capacity -/

/-- `overflow_guarded_add` (vec.rs 1216-1223). -/
def overflowGuardedAdd (a b : Nat) : M (VSt α) Nat :=
  if a + b ≤ c.usizeMax then pure (a + b) else M.boom

/-- `ScopePtr::realloc_array` (ptr.rs 269-284): the new size is an unchecked product. -/
def reallocArray (n : Nat) : M (VSt α) (Except AllocErr Unit) := do
  let s ← M.get
  let bytes ← umul c n c.size
  match ← liftW (rawRealloc c s.self.ptr s.self.alloc (s.self.cap * c.size) bytes) with
  | none => pure (.error .allocError)
  | some p => do
    M.modify fun s => { s with self := { s.self with ptr := some p, cap := n } }
    pure (.ok ())

/-- `grow_exact` (vec.rs 229-240). The assignment to `*self` drops the old (unallocated) vector. -/
def growExact (n : Nat) : M (VSt α) (Except AllocErr Unit) := do
  let s ← M.get
  debugAssert c (capacity c s.self < n)
  if capacity c s.self = 0 then
    match ← liftW (tryWithCapacityAndMarker c n s.self.marker) with
    | .error e => pure (.error e)
    | .ok v => do
      drop c
      M.modify fun s => { s with self := v }
      pure (.ok ())
  else reallocArray c n

/-- `grow_amortized` (vec.rs 218-226). -/
def growAmortized (n : Nat) : M (VSt α) (Except AllocErr Unit) := do
  let s ← M.get
  debugAssert c (capacity c s.self < n)
  let n := max n (minNonZeroCap c)
  let twice ← umul c (capacity c s.self) 2
  growExact c (max n twice)

/-- `try_reserve_exact` (vec.rs 193-200). -/
def tryReserveExact (additional : Nat) : M (VSt α) (Except AllocErr Unit) := do
  let s ← M.get
  let required ← overflowGuardedAdd c s.self.len additional
  if capacity c s.self < required then growExact c required else pure (.ok ())

/-- `reserve_exact` (vec.rs 188-190). -/
def reserveExact (additional : Nat) : M (VSt α) Unit := do
  unwrap (← tryReserveExact c additional)

/-- `try_reserve` (vec.rs 208-215). -/
def tryReserve (additional : Nat) : M (VSt α) (Except AllocErr Unit) := do
  let s ← M.get
  let required ← overflowGuardedAdd c s.self.len additional
  if capacity c s.self < required then growAmortized c required else pure (.ok ())

/-- `reserve` (vec.rs 203-205). -/
def reserve (additional : Nat) : M (VSt α) Unit := do
  unwrap (← tryReserve c additional)

/-- `shrink` (vec.rs 243-252). -/
def shrink (n : Nat) : M (VSt α) (Except AllocErr Unit) := do
  let s ← M.get
  debugAssert c (n < capacity c s.self)
  debugAssert c (s.self.len ≤ n)
  if c.size = 0 then pure (.ok ()) else reallocArray c n

/-- `shrink_to_fit` (vec.rs 255-259). -/
def shrinkToFit : M (VSt α) Unit := do
  let s ← M.get
  if s.self.len < capacity c s.self then do
    unwrap (← shrink c s.self.len)
  else pure ()

/-- `shrink_to` (vec.rs 262-267). -/
def shrinkTo (minCapacity : Nat) : M (VSt α) Unit := do
  let s ← M.get
  let n := max s.self.len minCapacity
  if n < capacity c s.self then do
    unwrap (← shrink c n)
  else pure ()

/-! ## Elements -/

/-- `clear` (vec.rs 270-280): drops element by element, then resets the length. -/
def clear : M (VSt α) Unit := onBuf c do
  let n ← Buf.getLen
  Buf.dropLoop c 0 n
  Buf.setLen c 0

/-- `push` (vec.rs 283-295). If reserving panics the element is dropped. -/
def push (a : α) : M (VSt α) Unit := do
  (reserveExact c 1).onUnwind (onLog (dropVal c a))
  onBuf c do
    let n ← Buf.getLen
    Buf.write c n a
    Buf.setLen c (n + 1)

/-- `pop` (vec.rs 298-311). -/
def pop : M (VSt α) (Option α) := onBuf c do
  let n ← Buf.getLen
  if n = 0 then pure none
  else do
    uncheckedIndex c (n - 1) n
    let a ← Buf.read c (n - 1)
    Buf.setLen c (n - 1)
    pure (some a)

/-- `leak` (vec.rs 314-318): the slice is taken, then `self` is dropped at the end of the function.
Returns pointer and length of the slice. -/
def leak : M (VSt α) (Option Nat × Nat) := do
  let s ← M.get
  drop c
  pure (s.self.ptr, s.self.len)

/-- `dealloc_without_drop` (vec.rs 322-324): releases the buffer, then `self` is dropped at the end
of the function. -/
def deallocWithoutDrop : M (VSt α) Unit := do
  dealloc c
  drop c

/-- `append` (vec.rs 327-339) on `(self, other)`. -/
def append : M (St (VecH × VecH) α) Unit := do
  let s ← M.get
  let n := s.self.2.len
  onPart Prod.fst (fun v p => (v, p.2)) (reserveExact c n)
  let s ← M.get
  onPart Prod.fst (fun v p => (v, p.2)) (onBuf c do
    let k ← Buf.getLen
    Buf.copyFrom c (s.w.slots s.self.2.ptr) k n
    Buf.setLen c (k + n))
  onPart Prod.snd (fun v p => (p.1, v)) (onBuf c (Buf.setLen c 0))

/-- The loop of `extend_from_slice` (vec.rs 347-349). -/
def pushClones : List α → M (VSt α) Unit
  | [] => pure ()
  | a :: l => do
    let b ← onLog (cloneVal c a)
    push c b
    pushClones l

/-- `extend_from_slice` (vec.rs 342-350). -/
def extendFromSlice (l : List α) : M (VSt α) Unit := do
  reserveExact c l.length
  pushClones c l

/-- `for item in iter { self.push(item) }` (vec.rs 356-358, 1058-1060): on unwinding the items not
yet yielded are dropped with the iterator. -/
def pushItems (boom : Bool) : List α → M (VSt α) Unit
  | [] => if boom then M.boom else pure ()
  | a :: l => do
    (push c a).onUnwind (onLog (dropVals c l))
    pushItems boom l

/-- `extend_from_iter` (vec.rs 352-359). -/
def extendFromIter (it : Iter α) : M (VSt α) Unit := do
  (reserveExact c it.hint).onUnwind (onLog (dropVals c it.items))
  pushItems c it.boom it.items

/-- `swap_remove` (vec.rs 362-381). -/
def swapRemove (i : Nat) : M (VSt α) α := do
  let s ← M.get
  assert (i < s.self.len)
  if s.self.len = 1 then
    match ← pop c with
    | some a => pure a
    | none => M.boom
  else onBuf c do
    let n ← Buf.getLen
    uncheckedIndex c i n
    uncheckedIndex c (n - 1) n
    let a ← Buf.read c i
    Buf.copyNonoverlapping c (n - 1) i 1
    Buf.setLen c (n - 1)
    pure a

/-- `insert` (vec.rs 419-437). If the assertion or reserving panics the element is dropped. -/
def insert (i : Nat) (a : α) : M (VSt α) Unit := do
  (do
    let s ← M.get
    assert (i ≤ s.self.len)
    if s.self.len = capacity c s.self then reserveExact c 1 else pure ()
    : M (VSt α) Unit).onUnwind (onLog (dropVal c a))
  onBuf c do
    let n ← Buf.getLen
    uncheckedIndex c i (n + 1)
    Buf.copy c i (i + 1) (n - i)
    Buf.write c i a
    Buf.setLen c (n + 1)

/-- `truncate` (vec.rs 439-460), on any buffer. -/
def truncateBuf (k : Nat) : M (Buf α) Unit := do
  let n ← Buf.getLen
  if n < k then pure ()
  else do
    Buf.setLen c k
    Buf.dropSlice c k (n - k)

/-- `truncate` (vec.rs 439-460). -/
def truncate (k : Nat) : M (VSt α) Unit := onBuf c (truncateBuf c k)

/-- `remove` (vec.rs 462-482). -/
def remove (i : Nat) : M (VSt α) α := onBuf c do
  let n ← Buf.getLen
  assert (i < n)
  uncheckedIndex c i n
  let a ← Buf.read c i
  Buf.copy c (i + 1) i (n - i - 1)
  Buf.setLen c (n - 1)
  pure a

/-- `v[i]` by shared reference (vec.rs 937-943). -/
def index (i : Nat) : M (VSt α) α := onBuf c do
  let n ← Buf.getLen
  assert (i < n)
  Buf.read c i

/-- `v[i] = a` (vec.rs 945-949): bounds check (on panic `a` is dropped), then the old element is
dropped and replaced; the replacement happens even if the old element's destructor panics. -/
def indexSet (i : Nat) (a : α) : M (VSt α) Unit := do
  (do
    let s ← M.get
    assert (i < s.self.len) : M (VSt α) Unit).onUnwind (onLog (dropVal c a))
  onBuf c ((Buf.dropAt c i).andAlways (Buf.write c i a))

/-- The contents as seen through `as_slice` (vec.rs 140-142). -/
def asSlice : M (VSt α) (List α) := onBuf c do
  let n ← Buf.getLen
  Buf.readSlice c 0 n

/-! ## resize -/

/-- Loop of `do_resize` for `resize_with` (vec.rs 670-672 and 675): calls `k`, `k+1`, … of the
callback; `none` = it panics. -/
def pushCalls (f : Nat → Option α) : (k n : Nat) → M (VSt α) Unit
  | _, 0 => pure ()
  | k, n + 1 =>
    match f k with
    | none => M.boom
    | some a => do push c a; pushCalls f (k + 1) n

/-- `resize_with` (vec.rs 491-493, 657-689). -/
def resizeWith (k : Nat) (f : Nat → Option α) : M (VSt α) Unit := do
  let s ← M.get
  if k ≤ s.self.len then truncate c k
  else do
    reserveExact c (k - s.self.len)
    pushCalls c f 0 (k - s.self.len)

/-- Loop of `do_resize` for `resize` (vec.rs 670-672): `n` clones of `a`. -/
def pushCopies (a : α) : Nat → M (VSt α) Unit
  | 0 => pure ()
  | n + 1 => do
    let b ← onLog (cloneVal c a)
    push c b
    pushCopies a n

/-- `resize` (vec.rs 484-489, 657-678, 691-700): the value itself becomes the last element, or is
dropped when the vector is truncated or when something panics before. -/
def resize (k : Nat) (a : α) : M (VSt α) Unit := do
  let s ← M.get
  if k ≤ s.self.len then (truncate c k).andAlways (onLog (dropVal c a))
  else do
    (do reserveExact c (k - s.self.len)
        pushCopies c a (k - s.self.len - 1) : M (VSt α) Unit).onUnwind (onLog (dropVal c a))
    push c a

/-! ## retain and dedup -/

/-- `RetainIter::keep_next` (vec.rs 787-792) with `copy` (769-775) and `increment_vec_len`
(782-784). -/
def keepNext (write read initial : Nat) : M (Buf α) Unit := do
  debugAssert c (read ≠ write)
  uncheckedIndex c read initial
  uncheckedIndex c write initial
  Buf.copyNonoverlapping c read write 1
  let n ← Buf.getLen
  Buf.setLen c (n + 1)

/-- `RetainIter::discard_next` (vec.rs 795-798). -/
def discardNext (read initial : Nat) : M (Buf α) Unit := do
  uncheckedIndex c read initial
  Buf.dropAt c read

/-- `RetainIter::new` (vec.rs 713-738); returns `(write, read, initial_len)`. -/
def retainNew (discardFirst : Bool) : M (Buf α) (Nat × Nat × Nat) := do
  let n ← Buf.getLen
  debugAssert c (n ≠ 0)
  if discardFirst then do
    Buf.setLen c 0
    uncheckedIndex c 0 n
    Buf.dropAt c 0
    pure (0, 1, n)
  else do
    Buf.setLen c 1
    pure (1, 2, n)

/-- Loop of `RetainIter::retain` (vec.rs 859-865). `todo` is `initial - read`, the number of rounds
left (`has_next`, 740-742); `f k` is the `k`-th call of the predicate, `none` = it panics. -/
def retainLoop (f : Nat → α → Option Bool) : (todo k write read initial : Nat) → M (Buf α) Unit
  | 0, _, _, _, _ => pure ()
  | todo + 1, k, write, read, initial => do
    uncheckedIndex c read initial
    let a ← Buf.read c read
    match f k a with
    | none => M.boom
    | some true => do
      keepNext c write read initial
      retainLoop f todo (k + 1) (write + 1) (read + 1) initial
    | some false => do
      discardNext c read initial
      retainLoop f todo (k + 1) write (read + 1) initial

/-- `RetainIter::retain` (vec.rs 850-866), on any buffer. -/
def retainBuf (f : Nat → α → Option Bool) : M (Buf α) Unit := do
  let n ← Buf.getLen
  if n = 0 then pure ()
  else do
    let a ← Buf.read c 0
    match f 0 a with
    | none => M.boom
    | some keep => do
      let (write, read, initial) ← retainNew c (!keep)
      retainLoop c f (initial - read) 1 write read initial

/-- `retain` (vec.rs 495-497). -/
def retain (f : Nat → α → Option Bool) : M (VSt α) Unit := onBuf c (retainBuf c f)

/-- Loop of `RetainIter::dedup_by` (vec.rs 817-825). `same k tested keeped` is the `k`-th call of
the test, which may also change both elements through its `&mut` arguments; `keeped` is the slot the
pointer of that name points to. Simplification: a panicking test leaves both elements as they were. -/
def dedupByLoop (same : Nat → α → α → Option (Bool × α × α)) :
    (todo k keeped write read initial : Nat) → M (Buf α) Unit
  | 0, _, _, _, _, _ => pure ()
  | todo + 1, k, keeped, write, read, initial => do
    uncheckedIndex c read initial
    let a ← Buf.read c read
    let b ← Buf.read c keeped
    match same k a b with
    | none => M.boom
    | some (r, a', b') => do
      Buf.write c read a'
      Buf.write c keeped b'
      if r then do
        discardNext c read initial
        dedupByLoop same todo (k + 1) keeped write (read + 1) initial
      else do
        keepNext c write read initial
        dedupByLoop same todo (k + 1) read (write + 1) (read + 1) initial

/-- `RetainIter::dedup_by` (vec.rs 801-826), on any buffer. -/
def dedupByBuf (same : Nat → α → α → Option (Bool × α × α)) : M (Buf α) Unit := do
  let n ← Buf.getLen
  if n = 0 then pure ()
  else do
    let (write, read, initial) ← retainNew c false
    dedupByLoop c same (initial - read) 0 0 write read initial

/-- `dedup_by` (vec.rs 510-512). -/
def dedupBy (same : Nat → α → α → Option (Bool × α × α)) : M (VSt α) Unit :=
  onBuf c (dedupByBuf c same)

/-- `dedup` (vec.rs 499-504) for an element type whose `==` is `eq`. -/
def dedup (eq : α → α → Bool) : M (VSt α) Unit :=
  dedupBy c fun _ a b => some (eq a b, a, b)

/-- Loop of `RetainIter::dedup_by_key` (vec.rs 838-846). `key k` is the `k`-th call; it may change
the element. -/
def dedupByKeyLoop {K : Type} [DecidableEq K] (key : Nat → α → Option (K × α)) :
    (todo k : Nat) → (prev : K) → (write read initial : Nat) → M (Buf α) Unit
  | 0, _, _, _, _, _ => pure ()
  | todo + 1, k, prev, write, read, initial => do
    uncheckedIndex c read initial
    let a ← Buf.read c read
    match key k a with
    | none => M.boom
    | some (cur, a') => do
      Buf.write c read a'
      if prev = cur then do
        discardNext c read initial
        dedupByKeyLoop key todo (k + 1) prev write (read + 1) initial
      else do
        keepNext c write read initial
        dedupByKeyLoop key todo (k + 1) cur (write + 1) (read + 1) initial

/-- `RetainIter::dedup_by_key` (vec.rs 829-847), on any buffer. -/
def dedupByKeyBuf {K : Type} [DecidableEq K] (key : Nat → α → Option (K × α)) :
    M (Buf α) Unit := do
  let n ← Buf.getLen
  if n = 0 then pure ()
  else do
    let a ← Buf.read c 0
    match key 0 a with
    | none => M.boom
    | some (k0, a') => do
      Buf.write c 0 a'
      let (write, read, initial) ← retainNew c false
      dedupByKeyLoop c key (initial - read) 1 k0 write read initial

/-- `dedup_by_key` (vec.rs 506-508). -/
def dedupByKey {K : Type} [DecidableEq K] (key : Nat → α → Option (K × α)) : M (VSt α) Unit :=
  onBuf c (dedupByKeyBuf c key)

/-! ## split_off, drain -/

/-- `split_off` (vec.rs 398-411): copies the tail into a new vector but sets neither length. -/
def splitOff (k : Nat) : M (VSt α) VecH := do
  let s ← M.get
  if s.self.len ≤ k then liftW new
  else do
    let n := s.self.len - k
    let r ← liftW (withCapacity c n)
    uncheckedIndex c k s.self.len
    let s ← M.get
    let (_, r) ← liftW (withLocal r (drop c)
      (onBuf c (Buf.copyFrom c ((s.w.slots s.self.ptr).drop k) 0 n)))
    pure r

/-- Bound of a range (`core::ops::Bound`). -/
inductive Bnd where
  | unbounded
  | included (n : Nat)
  | excluded (n : Nat)

/-- `DrainInner` (vec.rs 521-527): the slice still to be yielded, as offset and length in the
buffer, and the other fields. The vector itself is the state. -/
structure DrainH where
  off : Nat
  cnt : Nat
  start : Nat
  stop : Nat
  originalLen : Nat

/-- Start of a range given by its lower bound (vec.rs 532-536). -/
def bndStart : Bnd → M (Buf α) Nat
  | .unbounded => pure 0
  | .included v => pure v
  | .excluded v => uadd c v 1

/-- End of a range given by its upper bound, for length `n` (vec.rs 537-541). -/
def bndStop (n : Nat) : Bnd → M (Buf α) Nat
  | .unbounded => pure n
  | .included v => uadd c v 1
  | .excluded v => pure v

/-- `DrainInner::new` (vec.rs 530-555), on any buffer. `as_slice()[start..end]` panics unless
`start <= end <= len`. -/
def drainNew (lo hi : Bnd) : M (Buf α) DrainH := do
  let n ← Buf.getLen
  let start ← bndStart c lo
  let stop ← bndStop c n hi
  Buf.setLen c start
  let n ← Buf.getLen
  assert (start ≤ stop ∧ stop ≤ n)
  pure { off := start, cnt := stop - start, start, stop, originalLen := n }

/-- `DrainInner::next` (vec.rs 587-597). -/
def drainNext (d : DrainH) : M (Buf α) (Option α × DrainH) :=
  if d.cnt = 0 then pure (none, d)
  else do
    let a ← Buf.read c d.off
    pure (some a, { d with off := d.off + 1, cnt := d.cnt - 1 })

/-- `DrainInner::next_back` (vec.rs 606-616): the remaining slice is rebuilt starting at the last
element. -/
def drainNextBack (d : DrainH) : M (Buf α) (Option α × DrainH) :=
  if d.cnt = 0 then pure (none, d)
  else do
    let a ← Buf.read c (d.off + d.cnt - 1)
    pure (some a, { d with off := d.off + d.cnt - 1, cnt := d.cnt - 1 })

/-- `self.count()` in `DrainInner::drop` (vec.rs 565): read out and drop what is left. -/
def drainCount : (off cnt : Nat) → M (Buf α) Unit
  | _, 0 => pure ()
  | off, cnt + 1 => do
    let a ← Buf.read c off
    Buf.onLog (dropVal c a)
    drainCount (off + 1) cnt

/-- `DrainInner::drop` (vec.rs 562-582). -/
def drainDrop (d : DrainH) : M (Buf α) Unit := do
  drainCount c d.off d.cnt
  let n ← Buf.getLen
  uncheckedIndex c d.start n
  uncheckedIndex c d.stop n
  Buf.copy c d.stop d.start (d.stop - d.start)
  let k ← usub c d.originalLen (d.stop - d.start)
  Buf.setLen c k

/-- `vec.drain(range)` used as `vec.drain(range).collect()` does: created (vec.rs 514-516), read to
the end, dropped. Returns the yielded elements. -/
def drainAll (lo hi : Bnd) : M (VSt α) (List α) := onBuf c do
  let d ← drainNew c lo hi
  let l ← Buf.readSlice c d.off d.cnt
  drainDrop c { d with off := d.off + d.cnt, cnt := 0 }
  pure l

/-! ## Construction from other collections -/

/-- `clone` (vec.rs 929-935) of a vector with contents `l`. -/
def cloneFrom (l : List α) : M (World α) VecH := do
  let v ← new
  let (_, v) ← withLocal v (drop c) (extendFromSlice c l)
  pure v

/-- `From<&[T]>` (vec.rs 992-998): `clone_from_slice` panics if the lengths differ. `From<&mut [T]>`
(1000-1004) is the same. -/
def fromSlice (l : List α) : M (World α) VecH := do
  let v ← new
  let (_, v) ← withLocal v (drop c) (do
    let s ← M.get
    assert (s.self.len = l.length)
    : M (VSt α) Unit)
  pure v

/-- `From<[T; N]>` (vec.rs 1006-1030). If reserving panics the array is dropped, then the vector. -/
def fromArray (l : List α) : M (World α) VecH := do
  let v ← new
  let (_, v) ← withLocal v (drop c) (do
    (reserveExact c l.length).onUnwind (onLog (dropVals c l))
    onBuf c do
      Buf.copyFrom c (l.map some) 0 l.length
      Buf.setLen c l.length)
  pure v

/-- `from_iter` (vec.rs 1053-1064). -/
def fromIter (it : Iter α) : M (World α) VecH := do
  let v ← (withCapacity c it.hint).onUnwind (World.onLog (dropVals c it.items))
  let (_, v) ← withLocal v (drop c) (pushItems c it.boom it.items)
  pure v

/-! ## Boxed slices -/

/-- `Box<[T]>`: the fat pointer with its allocator (boxed.rs 7, ptr.rs 12-17). -/
structure BoxSliceH where
  ptr : Option Nat
  len : Nat
  alloc : Nat
  marker : Marker

/-- `into_boxed_slice` (vec.rs 384-395). The vector is consumed; if shrinking panics it is
dropped. -/
def intoBoxedSlice (v : VecH) : M (World α) BoxSliceH := do
  let (_, v) ← withLocal v (drop c) (shrinkToFit c)
  pure { ptr := v.ptr, len := v.cap, alloc := v.alloc, marker := v.marker }

/-- `From<Box<[T]>> for Vec<T>` (vec.rs 1032-1040). -/
def ofBoxedSlice (b : BoxSliceH) : VecH :=
  { ptr := b.ptr, cap := b.len, alloc := b.alloc, marker := b.marker, len := b.len }

/-- `Drop for ScopePtr<[T]>` (ptr.rs 33-41): drop glue of the slice, then deallocation. The buffer
of the box is seen as a vector with `len = cap`. -/
def boxSliceDrop (b : BoxSliceH) : M (World α) Unit := do
  let _ ← withLocal (ofBoxedSlice b) (pure ()) (do
    onBuf c (Buf.dropSlice c 0 b.len)
    dealloc c)
  pure ()

/-! ## By-value iteration -/

/-- `IntoIter` (vec.rs 1079-1082). -/
structure IntoIterH where
  vec : VecH
  index : Nat

/-- Run code on the vector inside the iterator. -/
def onVec {β : Type} (m : M (VSt α) β) : M (St IntoIterH α) β :=
  onPart IntoIterH.vec (fun v it => { it with vec := v }) m

/-- `into_iter` (vec.rs 1071-1076). -/
def intoIter (v : VecH) : IntoIterH := { vec := v, index := 0 }

/-- `IntoIter::next` (vec.rs 1087-1095). -/
def iterNext : M (St IntoIterH α) (Option α) := do
  let s ← M.get
  if s.self.index < s.self.vec.len then do
    M.modify fun s => { s with self := { s.self with index := s.self.index + 1 } }
    let a ← onVec (onBuf c (Buf.read c s.self.index))
    pure (some a)
  else pure none

/-- `IntoIter::next_back` (vec.rs 1103-1105). -/
def iterNextBack : M (St IntoIterH α) (Option α) := onVec (pop c)

/-- `IntoIter::size_hint` and `len` (vec.rs 1097-1099, 1108). -/
def iterSizeHint : M (St IntoIterH α) Nat := M.gets (·.self.vec.len)

/-- `IntoIter::as_slice` (vec.rs 1134-1140). -/
def iterAsSlice : M (St IntoIterH α) (List α) := do
  let s ← M.get
  let n ← usub c s.self.vec.len s.self.index
  onVec (onBuf c (Buf.readSlice c s.self.index n))

/-- `IntoIter::drop` (vec.rs 1112-1131), followed by dropping the field `vec`. -/
def iterDrop : M (St IntoIterH α) Unit :=
  (do
    let s ← M.get
    onVec (onBuf c (Buf.setLen c 0))
    let n ← usub c s.self.vec.len s.self.index
    onVec (onBuf c (Buf.dropLoop c s.self.index n))
    : M (St IntoIterH α) Unit).andAlways (onVec (drop c))

end Vec
end Lokky
