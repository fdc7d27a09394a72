import Verif.Model.Alias

/-!
# The pointers that `Vec` and `StackVec` make and use

The functions of `Vec` and `StackVec`, reduced to what the aliasing rules see: which references
and raw pointers they make from which, and which slots they read and write with them.

The slots are the places for the elements, `cap` of them. Pointer `0` is the pointer of the
`ScopePtr` (a raw pointer, ptr.rs 13), or, for a `StackVec`, the `&mut self` of the call; whatever
lies below it in the stacks is never used during the life of the vector and left out. Elements are
not zero-sized. `dbg` says whether debug assertions are compiled in. Passing on a reference makes a
new one, of the same range, at the top; these are left out, and so is turning `&T` into `*const T`.
-/

namespace Lokky.Alias

variable {σ : Type} [Mach σ]

/-- Do `f` for `n` indices from `i` on. -/
def forUp (f : Nat → M σ Unit) : Nat → Nat → M σ Unit
  | _, 0 => ret ()
  | i, n + 1 => do
    f i
    forUp f (i + 1) n

/-- `drop_in_place` of an element: its destructor gets `&mut` and may do what it likes. -/
def dropAt (t i : Nat) : M σ Unit := do
  let r ← Mach.mutRef t i 1
  Mach.writeAt r i 1

/-- `ptr::copy` and `copy_nonoverlapping` of `n` elements within the block. -/
def copyAt (src from_ dst to n : Nat) : M σ Unit := do
  Mach.readAt src from_ n
  Mach.writeAt dst to n

/-- `Vec::capacity` (vec.rs 90-96): `self.ptr.len()` makes a `&[T]` of the whole block. -/
def capacity (cap : Nat) : M σ Unit := do
  let _ ← Mach.shrRef 0 0 cap
  ret ()

/-- `Vec::set_len` (vec.rs 122-125): the debug assertion asks for the capacity. `StackVec::set_len`
(small_vec.rs 126-130) compares with a constant: that is `dbg = false`. -/
def setLen (dbg : Bool) (cap : Nat) : M σ Unit := if dbg then capacity cap else ret ()

/-- `Vec::as_slice_with_len_mut` (vec.rs 128-131): a `&mut [T]` of the whole block, from that a
`*mut T`, from that a `&mut [T]` of `n` elements. `StackVec` (small_vec.rs 138-141) likewise. -/
def sliceMut (cap n : Nat) : M σ Nat := do
  let a ← Mach.mutRef 0 0 cap
  let p ← Mach.rawMut a 0 cap
  Mach.mutRef p 0 n

/-- `Vec::as_slice_with_len` (vec.rs 134-137); `StackVec` (small_vec.rs 144-147) likewise. -/
def slice (cap n : Nat) : M σ Nat := do
  let a ← Mach.shrRef 0 0 cap
  Mach.shrRef a 0 n

/-- `Vec::as_mut_ptr`: there is no such function (the one of vec.rs 155 is called `as_mut`), so
this is the one of slices, called on the `&mut [T]` of `deref_mut` (vec.rs 899-903), which ends at
the length. -/
def asMutPtr (cap len : Nat) : M σ Nat := do
  let s ← sliceMut cap len
  Mach.rawMut s 0 len

/-- `Vec::as_ptr` (vec.rs 150-152). -/
def asPtr (cap len : Nat) : M σ Nat := slice cap len

/-- `self.get_unchecked(i)`, `&self[i]`, `self.get(i)`: on the `&[T]` of `deref` (vec.rs 891-897,
937-943). -/
def getRef (cap len i : Nat) : M σ Nat := do
  let s ← slice cap len
  Mach.shrRef s i 1

/-- `self.get_unchecked_mut(i)`, `&mut self[i]`, `self.get_mut(i)`: on the `&mut [T]` of
`deref_mut` (vec.rs 899-903, 945-949). -/
def getMut (cap len i : Nat) : M σ Nat := do
  let s ← sliceMut cap len
  Mach.mutRef s i 1

/-- The same, turned into a `*mut T`. -/
def getMutPtr (cap len i : Nat) : M σ Nat := do
  let r ← getMut cap len i
  Mach.rawMut r i 1

/-- `Vec::spare_capacity` (vec.rs 165-171). -/
def spareCapacity (cap len : Nat) : M σ Nat := do
  let p ← asPtr cap len
  capacity cap
  Mach.shrRef p len (cap - len)

/-- `Vec::spare_capacity_mut` (vec.rs 174-180). -/
def spareCapacityMut (cap len : Nat) : M σ Nat := do
  let p ← asMutPtr cap len
  capacity cap
  Mach.mutRef p len (cap - len)

/-- `Vec::clear` (vec.rs 270-280). -/
def clear (dbg : Bool) (cap len : Nat) : M σ Unit := do
  forUp (fun i => do
    let r ← getMut cap len i
    dropAt r i) 0 len
  setLen dbg cap

/-- `Vec::push` (vec.rs 283-295) with room left: `reserve_exact` (188-200) only looks at the
capacity. -/
def push (dbg : Bool) (cap len : Nat) : M σ Unit := do
  capacity cap
  let p ← asMutPtr cap len
  Mach.writeAt p len 1
  setLen dbg cap

/-- `Vec::pop` (vec.rs 298-311) of a vector with elements. -/
def pop (dbg : Bool) (cap len : Nat) : M σ Unit := do
  let r ← getRef cap len (len - 1)
  Mach.readAt r (len - 1) 1
  setLen dbg cap

/-- `Vec::append` (vec.rs 327-339), as far as `self` is concerned, with room for the `n` elements
of the other vector. -/
def append (dbg : Bool) (cap len n : Nat) : M σ Unit := do
  capacity cap
  let p ← asMutPtr cap len
  Mach.writeAt p len n
  setLen dbg cap

/-- `Vec::swap_remove` (vec.rs 362-381). -/
def swapRemove (dbg : Bool) (cap len i : Nat) : M σ Unit :=
  if len = 1 then pop dbg cap len
  else do
    let e ← getMutPtr cap len i
    let l ← getMutPtr cap len (len - 1)
    Mach.readAt e i 1
    copyAt l (len - 1) e i 1
    setLen dbg cap

/-- `Vec::split_off` (vec.rs 398-411), the vector itself: `at_ptr` is the pointer to one element. -/
def splitOff (cap len k : Nat) : M σ Unit :=
  if len ≤ k then ret ()
  else do
    let r ← getRef cap len k
    Mach.readAt r k (len - k)

/-- `Vec::split_off` (vec.rs 398-411), the new vector, of capacity `n` and length 0. -/
def splitOffNew (n : Nat) : M σ Unit := do
  let p ← asMutPtr n 0
  Mach.writeAt p 0 n

/-- `Vec::insert` (vec.rs 419-437) with room left. -/
def insert (dbg : Bool) (cap len i : Nat) : M σ Unit := do
  capacity cap
  let s ← sliceMut cap (len + 1)
  let r ← Mach.mutRef s i 1
  let p ← Mach.rawMut r i 1
  copyAt p i p (i + 1) (len - i)
  Mach.writeAt p i 1
  setLen dbg cap

/-- `Vec::truncate` (vec.rs 439-460). -/
def truncate (dbg : Bool) (cap len n : Nat) : M σ Unit :=
  if n > len then ret ()
  else do
    let p ← asMutPtr cap len
    setLen dbg cap
    forUp (fun i => dropAt p i) n (len - n)

/-- `Vec::remove` (vec.rs 462-482). -/
def remove (dbg : Bool) (cap len i : Nat) : M σ Unit := do
  let p ← getMutPtr cap len i
  Mach.readAt p i 1
  copyAt p (i + 1) p i (len - i - 1)
  setLen dbg cap

/-- `Vec::from([T; N])` (vec.rs 1006-1031), the vector. -/
def fromArray (dbg : Bool) (n : Nat) : M σ Unit := do
  capacity n
  let p ← asMutPtr n 0
  Mach.writeAt p 0 n
  setLen dbg n

/-- `Drop for Vec` (vec.rs 977-990); giving the block back counts as a write. -/
def dropVec (cap len : Nat) : M σ Unit := do
  capacity cap
  forUp (fun i => do
    let r ← getMut cap len i
    dropAt r i) 0 len
  Mach.writeAt 0 0 cap

/-- `IntoIter::next` (vec.rs 1087-1095), when there is an element left. -/
def intoNext (cap len i : Nat) : M σ Unit := do
  let r ← getRef cap len i
  Mach.readAt r i 1

/-- `IntoIter::as_slice` (vec.rs 1134-1140). -/
def intoSlice (cap len i : Nat) : M σ Nat := do
  let p ← asPtr cap len
  Mach.shrRef p i (len - i)

/-- `IntoIter::as_slice_mut` (vec.rs 1142-1148). -/
def intoSliceMut (cap len i : Nat) : M σ Nat := do
  let p ← asMutPtr cap len
  Mach.mutRef p i (len - i)

/-- `Drop for IntoIter` (vec.rs 1112-1131), without the drop of the vector that follows: the pointer
comes from a vector whose length has just been set to 0. -/
def intoDrop (dbg : Bool) (cap len i : Nat) : M σ Unit := do
  setLen dbg cap
  let p ← asMutPtr cap 0
  let s ← Mach.mutRef p i (len - i)
  forUp (fun k => dropAt s k) i (len - i)

/-- `RetainIter::copy` (vec.rs 769-775), with `initial_len` for `len`. -/
def retainCopy (cap len read write : Nat) : M σ Unit := do
  let r ← getRef cap len read
  let w ← getMutPtr cap len write
  copyAt r read w write 1

/-- `RetainIter::keep_next` (vec.rs 787-792). -/
def keepNext (dbg : Bool) (cap len read write : Nat) : M σ Unit := do
  retainCopy cap len read write
  setLen dbg cap

/-- `RetainIter::discard_next` (vec.rs 795-798). -/
def discardNext (cap len read : Nat) : M σ Unit := do
  let r ← getMut cap len read
  dropAt r read

/-- The loop of `RetainIter::retain` (vec.rs 858-864): `keep i` is the answer of the closure for
the element at `i`. -/
def retainLoop (dbg : Bool) (cap len : Nat) (keep : Nat → Bool) : Nat → Nat → Nat → M σ Unit
  | _, _, 0 => ret ()
  | read, write, n + 1 => do
    let r ← getRef cap len read
    Mach.readAt r read 1
    if keep read then
      keepNext dbg cap len read write
      retainLoop dbg cap len keep (read + 1) (write + 1) n
    else
      discardNext cap len read
      retainLoop dbg cap len keep (read + 1) write n

/-- `RetainIter::retain` (vec.rs 850-865) with `RetainIter::new` (713-737) on a vector with
elements. -/
def retain (dbg : Bool) (cap len : Nat) (keep : Nat → Bool) : M σ Unit := do
  let r ← getRef cap len 0
  Mach.readAt r 0 1
  setLen dbg cap
  if keep 0 then
    retainLoop dbg cap len keep 2 1 (len - 2)
  else
    discardNext cap len 0
    retainLoop dbg cap len keep 1 0 (len - 1)

/-- The loop of `RetainIter::dedup_by_key` (vec.rs 838-846): `same i` is whether the key of the
element at `i` equals the key kept last. -/
def dedupKeyLoop (dbg : Bool) (cap len : Nat) (same : Nat → Bool) : Nat → Nat → Nat → M σ Unit
  | _, _, 0 => ret ()
  | read, write, n + 1 => do
    let r ← getMut cap len read
    Mach.writeAt r read 1
    if same read then
      discardNext cap len read
      dedupKeyLoop dbg cap len same (read + 1) write n
    else
      keepNext dbg cap len read write
      dedupKeyLoop dbg cap len same (read + 1) (write + 1) n

/-- `RetainIter::dedup_by_key` (vec.rs 829-847) on a vector with elements. -/
def dedupKey (dbg : Bool) (cap len : Nat) (same : Nat → Bool) : M σ Unit := do
  let r ← getMut cap len 0
  Mach.writeAt r 0 1
  setLen dbg cap
  dedupKeyLoop dbg cap len same 2 1 (len - 2)

/-- What a closure does with a `&mut T` it got: write, or only read. -/
def useAt (w : Bool) (t i : Nat) : M σ Unit := if w then Mach.writeAt t i 1 else Mach.readAt t i 1

/-- The loop of `RetainIter::dedup_by` (vec.rs 817-825): `kept` is the pointer `keeped`, and `at_`
the slot it was made for. When asked about the element at `i`, the closure writes that element if
`wt i`, writes the one kept last if `wk i`, and answers `same i`. -/
def dedupByLoop (dbg : Bool) (cap len : Nat) (wt wk same : Nat → Bool) :
    Nat → Nat → Nat → Nat → Nat → M σ Unit
  | _, _, _, _, 0 => ret ()
  | kept, at_, read, write, n + 1 => do
    let t ← getMutPtr cap len read
    let a ← Mach.mutRef t read 1
    let b ← Mach.mutRef kept at_ 1
    useAt (wt read) a read
    useAt (wk read) b at_
    if same read then
      discardNext cap len read
      dedupByLoop dbg cap len wt wk same kept at_ (read + 1) write n
    else
      keepNext dbg cap len read write
      dedupByLoop dbg cap len wt wk same t read (read + 1) (write + 1) n

/-- `RetainIter::dedup_by` (vec.rs 801-826) on a vector with elements. -/
def dedupBy (dbg : Bool) (cap len : Nat) (wt wk same : Nat → Bool) : M σ Unit := do
  let kept ← getMutPtr cap len 0
  setLen dbg cap
  dedupByLoop dbg cap len wt wk same kept 0 2 1 (len - 2)

/-- `StackVec::clear` (small_vec.rs 154-161). -/
def stackClear (cap len : Nat) : M σ Unit := do
  let s ← sliceMut cap len
  forUp (fun i => dropAt s i) 0 len

/-- `StackVec::unchecked_push` (small_vec.rs 169-180): the slice is made one longer first. -/
def stackPush (cap len : Nat) : M σ Unit := do
  let s ← sliceMut cap (len + 1)
  let r ← Mach.mutRef s len 1
  Mach.writeAt r len 1

/-- `StackVec::unchecked_insert` (small_vec.rs 196-206): `get_unchecked_mut` is that of the slice
that ends at the length. -/
def stackInsert (cap len i : Nat) : M σ Unit := do
  let p ← getMutPtr cap len i
  copyAt p i p (i + 1) (len - i)
  Mach.writeAt p i 1

/-- `StackVec::unchecked_remove` (small_vec.rs 214-233). -/
def stackRemove (cap len i : Nat) : M σ Unit := do
  let p ← getMutPtr cap len i
  Mach.readAt p i 1
  let r ← asPtr cap len
  let w ← asMutPtr cap len
  copyAt r (i + 1) w i (len - i)

/-- `StackVec::swap_remove` (small_vec.rs 264-280). -/
def stackSwapRemove (cap len i : Nat) : M σ Unit := do
  let p ← getMutPtr cap len i
  Mach.readAt p i 1
  let l ← getRef cap len (len - 1)
  copyAt l (len - 1) p i 1

/-- `Drop for StackVec` (small_vec.rs 725-731). -/
def stackDrop (cap len : Nat) : M σ Unit := do
  let s ← sliceMut cap len
  forUp (fun i => dropAt s i) 0 len

/-- `String::remove` (string.rs 152-169): `idx` is where the character starts and `next` where it
ends. -/
def strRemove (dbg : Bool) (cap len idx next : Nat) : M σ Unit := do
  let r ← asPtr cap len
  Mach.readAt r idx (next - idx)
  let r ← asPtr cap len
  let w ← asMutPtr cap len
  copyAt r next w idx (len - next)
  setLen dbg cap

/-- `String::insert_bytes` (string.rs 187-200) of `amt` bytes with room for them. -/
def strInsert (dbg : Bool) (cap len idx amt : Nat) : M σ Unit := do
  capacity cap
  let r ← asPtr cap len
  let w ← asMutPtr cap len
  copyAt r idx w (idx + amt) (len - idx)
  let w ← asMutPtr cap len
  Mach.writeAt w idx amt
  setLen dbg cap

/-- `String::retain` (string.rs 290-295) that moves a character of `n` bytes to `to`. -/
def strRetainMove (cap len to n : Nat) : M σ Unit := do
  let p ← asMutPtr cap len
  let s ← Mach.mutRef p to n
  Mach.writeAt s to n

/-- The new vector when a `SmallVec` of `n` elements moves to the heap (small_vec.rs 446-457): its
length is still 0. -/
def moveToHeap (cap n : Nat) : M σ Unit := do
  let p ← asMutPtr cap 0
  Mach.writeAt p 0 n

/-- The new `StackVec` when a `SmallVec` of `n` elements moves to the stack (small_vec.rs 505-513):
its length is still 0. -/
def moveToStack (cap n : Nat) : M σ Unit := do
  let p ← asMutPtr cap 0
  Mach.writeAt p 0 n

/-! ## A program that uses a vector -/

/-- What a program may do with a vector and the references it got from it. References are named by
their position among those held. -/
inductive Call where
  /-- `capacity` (vec.rs 90), `is_full` (414), `spare_len` (183) -/
  | capacity
  /-- `as_slice` and `deref` (vec.rs 140, 894): the `&[T]` is held from then on -/
  | asSlice
  /-- `&v[i]` (vec.rs 940): the `&T` is held from then on -/
  | index (i : Nat)
  /-- read the element at `i` through the `k`-th `&` held -/
  | readShr (k i : Nat)
  /-- `as_mut_slice` and `deref_mut` (vec.rs 145, 902): the `&mut [T]` is held from then on -/
  | asMutSlice
  /-- `&mut v[i]` (vec.rs 948): the `&mut T` is held from then on -/
  | indexMut (i : Nat)
  /-- read the element at `i` through the `&mut` held -/
  | readMut (i : Nat)
  /-- write the element at `i` through the `&mut` held -/
  | writeMut (i : Nat)
  /-- `pop` (vec.rs 298) -/
  | pop
  /-- `clear` (vec.rs 270) -/
  | clear
  /-- `truncate` (vec.rs 439) -/
  | truncate (n : Nat)
  /-- `insert(len, x)` (vec.rs 419), with room left -/
  | insertLast
  /-- `remove(len - 1)` (vec.rs 462) -/
  | removeLast
  /-- `swap_remove(0)` of a vector of one element (vec.rs 362) -/
  | swapRemoveOnly
  /-- `reserve`, `reserve_exact`, `shrink_to`, `shrink_to_fit` (vec.rs 188-267) that move the
  elements to a block of `cap` slots -/
  | realloc (cap : Nat)
deriving Repr

/-- The program: the block, its capacity and length, the `&`s and the `&mut` it holds, each with
the slots it is for. -/
structure Prog (σ : Type) where
  st : σ
  cap : Nat
  len : Nat
  shr : List (Nat × Nat × Nat)
  uniq : Option (Nat × Nat × Nat)

/-- A call through `&self`: by the rules of Rust the program can no longer use its `&mut`. -/
def Prog.shared {β : Type} (g : Prog σ) (m : M σ β) (k : β → Prog σ → Prog σ) : Option (Prog σ) :=
  match m g.st with
  | some (b, st) => some (k b { g with st := st, uniq := none })
  | none => none

/-- A call through `&mut self`: by the rules of Rust the program can no longer use any of its
references. -/
def Prog.unique {β : Type} (g : Prog σ) (m : M σ β) (k : β → Prog σ → Prog σ) : Option (Prog σ) :=
  match m g.st with
  | some (b, st) => some (k b { g with st := st, shr := [], uniq := none })
  | none => none

/-- Something through a reference held. -/
def Prog.through (g : Prog σ) (m : M σ Unit) : Option (Prog σ) :=
  match m g.st with
  | some (_, st) => some { g with st := st }
  | none => none

/-- One step of the program; `none`: it breaks the aliasing rules. What panics (an index that is
out of bounds) and what does not compile (a reference that is not held) changes nothing. -/
def Prog.step (dbg : Bool) (g : Prog σ) : Call → Option (Prog σ)
  | .capacity => g.shared (Alias.capacity g.cap) fun _ g => g
  | .asSlice => g.shared (slice g.cap g.len) fun t g => { g with shr := g.shr ++ [(t, 0, g.len)] }
  | .index i =>
    if i < g.len then
      g.shared (getRef g.cap g.len i) fun t g => { g with shr := g.shr ++ [(t, i, 1)] }
    else some g
  | .readShr k i =>
    match g.shr[k]? with
    | some (t, lo, n) => if lo ≤ i ∧ i < lo + n then g.through (Mach.readAt t i 1) else some g
    | none => some g
  | .asMutSlice => g.unique (sliceMut g.cap g.len) fun t g => { g with uniq := some (t, 0, g.len) }
  | .indexMut i =>
    if i < g.len then
      g.unique (getMut g.cap g.len i) fun t g => { g with uniq := some (t, i, 1) }
    else some g
  | .readMut i =>
    match g.uniq with
    | some (t, lo, n) => if lo ≤ i ∧ i < lo + n then g.through (Mach.readAt t i 1) else some g
    | none => some g
  | .writeMut i =>
    match g.uniq with
    | some (t, lo, n) => if lo ≤ i ∧ i < lo + n then g.through (Mach.writeAt t i 1) else some g
    | none => some g
  | .pop =>
    if 0 < g.len then g.unique (Alias.pop dbg g.cap g.len) fun _ g => { g with len := g.len - 1 }
    else some g
  | .clear => g.unique (Alias.clear dbg g.cap g.len) fun _ g => { g with len := 0 }
  | .truncate n =>
    g.unique (Alias.truncate dbg g.cap g.len n) fun _ g => { g with len := min g.len n }
  | .insertLast =>
    if g.len < g.cap then
      g.unique (Alias.insert dbg g.cap g.len g.len) fun _ g => { g with len := g.len + 1 }
    else some g
  | .removeLast =>
    if 0 < g.len then
      g.unique (Alias.remove dbg g.cap g.len (g.len - 1)) fun _ g => { g with len := g.len - 1 }
    else some g
  | .swapRemoveOnly =>
    if g.len = 1 then
      g.unique (Alias.swapRemove dbg g.cap g.len 0) fun _ g => { g with len := g.len - 1 }
    else some g
  | .realloc cap =>
    if g.len ≤ cap then some ⟨Mach.heap cap, cap, g.len, [], none⟩ else some g

/-- A program, step by step. -/
def Prog.run (dbg : Bool) : List Call → Prog σ → Option (Prog σ)
  | [], g => some g
  | c :: cs, g =>
    match g.step dbg c with
    | some g' => g'.run dbg cs
    | none => none

/-- A vector just made, with `len` elements in a block of `cap` slots (as by
`From<Box<[T]>>`, vec.rs 1033-1041, or `with_capacity`, 51). -/
def Prog.start (cap len : Nat) : Prog σ := ⟨Mach.heap cap, cap, len, [], none⟩

/-! ## All calls -/

/-- Any call on a vector. Calls that ask for more room are `realloc` and then the call; `n` for the
length after `retain` and its kin is a parameter here. -/
inductive VCall where
  /-- one of the calls above -/
  | of (c : Call)
  /-- `push` (vec.rs 283), with room left -/
  | push
  /-- `append` (vec.rs 327) of a vector of `n` elements, with room left -/
  | append (n : Nat)
  /-- `insert` (vec.rs 419), with room left -/
  | insert (i : Nat)
  /-- `remove` (vec.rs 462) -/
  | remove (i : Nat)
  /-- `swap_remove` (vec.rs 362) -/
  | swapRemove (i : Nat)
  /-- `split_off` (vec.rs 398) -/
  | splitOff (k : Nat)
  /-- `retain` (vec.rs 850) of a vector with elements -/
  | retain (keep : Nat → Bool) (n : Nat)
  /-- `dedup_by_key` (vec.rs 829) of a vector with elements -/
  | dedupKey (same : Nat → Bool) (n : Nat)
  /-- `dedup_by` (vec.rs 801) of a vector with elements; the closure does not write the element
  kept last. `dedup` is one of these -/
  | dedupBy (wt same : Nat → Bool) (n : Nat)
  /-- `spare_capacity` (vec.rs 165): the `&` is held from then on -/
  | spareCapacity
  /-- `spare_capacity_mut` (vec.rs 174): the `&mut` is held from then on -/
  | spareCapacityMut

/-- One step of a program with any calls. -/
def Prog.stepAll (dbg : Bool) (g : Prog σ) : VCall → Option (Prog σ)
  | .of c => g.step dbg c
  | .push =>
    if g.len < g.cap then
      g.unique (Alias.push dbg g.cap g.len) fun _ g => { g with len := g.len + 1 }
    else some g
  | .append n =>
    if g.len + n ≤ g.cap then
      g.unique (Alias.append dbg g.cap g.len n) fun _ g => { g with len := g.len + n }
    else some g
  | .insert i =>
    if i ≤ g.len ∧ g.len < g.cap then
      g.unique (Alias.insert dbg g.cap g.len i) fun _ g => { g with len := g.len + 1 }
    else some g
  | .remove i =>
    if i < g.len then
      g.unique (Alias.remove dbg g.cap g.len i) fun _ g => { g with len := g.len - 1 }
    else some g
  | .swapRemove i =>
    if i < g.len then
      g.unique (Alias.swapRemove dbg g.cap g.len i) fun _ g => { g with len := g.len - 1 }
    else some g
  | .splitOff k =>
    g.unique (Alias.splitOff g.cap g.len k) fun _ g => { g with len := min g.len k }
  | .retain keep n =>
    if 0 < g.len then
      g.unique (Alias.retain dbg g.cap g.len keep) fun _ g => { g with len := min g.len n }
    else some g
  | .dedupKey same n =>
    if 0 < g.len then
      g.unique (Alias.dedupKey dbg g.cap g.len same) fun _ g => { g with len := min g.len n }
    else some g
  | .dedupBy wt same n =>
    if 0 < g.len then
      g.unique (Alias.dedupBy dbg g.cap g.len wt (fun _ => false) same) fun _ g =>
        { g with len := min g.len n }
    else some g
  | .spareCapacity =>
    g.shared (Alias.spareCapacity g.cap g.len) fun t g =>
      { g with shr := g.shr ++ [(t, g.len, g.cap - g.len)] }
  | .spareCapacityMut =>
    g.unique (Alias.spareCapacityMut g.cap g.len) fun t g =>
      { g with uniq := some (t, g.len, g.cap - g.len) }

/-- A program with any calls, step by step. -/
def Prog.runAll (dbg : Bool) : List VCall → Prog σ → Option (Prog σ)
  | [], g => some g
  | c :: cs, g =>
    match g.stepAll dbg c with
    | some g' => g'.runAll dbg cs
    | none => none

/-! ## Calls on the `StackVec` of a `SmallVec` -/

/-- A call on a `StackVec` (small_vec.rs 117-283), with the references the program gets. -/
inductive SCall where
  /-- `as_slice` (small_vec.rs 117-123) -/
  | asSlice
  /-- indexing of it -/
  | index (i : Nat)
  /-- read element `i` through the `k`-th `&` held -/
  | readShr (k i : Nat)
  /-- `as_mut_slice` (small_vec.rs 125-131) -/
  | asMutSlice
  /-- indexing of it -/
  | indexMut (i : Nat)
  /-- read element `i` through the `&mut` held -/
  | readMut (i : Nat)
  /-- write element `i` through the `&mut` held -/
  | writeMut (i : Nat)
  /-- `unchecked_push` (small_vec.rs 169), with room left -/
  | push
  /-- `pop` (small_vec.rs 183) -/
  | pop
  /-- `clear` (small_vec.rs 154) -/
  | clear
  /-- `unchecked_insert` (small_vec.rs 196) before an element, with room left -/
  | insert (i : Nat)
  /-- `remove` (small_vec.rs 209), with room left -/
  | remove (i : Nat)
  /-- `swap_remove` (small_vec.rs 264) -/
  | swapRemove (i : Nat)

/-- One step of a program with a `StackVec` of `g.cap` slots. -/
def Prog.stepStack (g : Prog σ) : SCall → Option (Prog σ)
  | .asSlice => g.step false .asSlice
  | .index i => g.step false (.index i)
  | .readShr k i => g.step false (.readShr k i)
  | .asMutSlice => g.step false .asMutSlice
  | .indexMut i => g.step false (.indexMut i)
  | .readMut i => g.step false (.readMut i)
  | .writeMut i => g.step false (.writeMut i)
  | .push =>
    if g.len < g.cap then
      g.unique (stackPush g.cap g.len) fun _ g => { g with len := g.len + 1 }
    else some g
  | .pop => g.step false .pop
  | .clear => g.unique (stackClear g.cap g.len) fun _ g => { g with len := 0 }
  | .insert i =>
    if i < g.len ∧ g.len < g.cap then
      g.unique (stackInsert g.cap g.len i) fun _ g => { g with len := g.len + 1 }
    else some g
  | .remove i =>
    if i < g.len ∧ g.len < g.cap then
      g.unique (stackRemove g.cap g.len i) fun _ g => { g with len := g.len - 1 }
    else some g
  | .swapRemove i =>
    if i < g.len then
      g.unique (stackSwapRemove g.cap g.len i) fun _ g => { g with len := g.len - 1 }
    else some g

/-- A program with a `StackVec`, step by step. -/
def Prog.runStack : List SCall → Prog σ → Option (Prog σ)
  | [], g => some g
  | c :: cs, g =>
    match g.stepStack c with
    | some g' => g'.runStack cs
    | none => none

end Lokky.Alias
