import Verif.Model.BorrowsVec

/-!
# Reference counters and the aliasing rules

The functions of `Rc`, `Arc` and `Urc` as far as Stacked Borrows is concerned: which pointers they
make and use, in which order (see Model/Borrows.lean).

A counted block has three slots: the value, and its two counters. All handles have the same raw
pointer to the block, tag 0 (`ScopePtr::clone` copies it, ptr.rs 125-132). A reference to such a
block consists of two pointers here, one for the counters, which are `Cell`s or atomics and so
inside of `UnsafeCell`s, and one for the value; the value itself is taken to be without
`UnsafeCell`s. References that are made and dropped within one function call of the standard
library (`Cell::get(&self)`, ...) are left out.
-/

namespace Lokky.Alias

variable {σ : Type} [Mach σ]

/-- `&self.0` of a handle for the block at `b` (`ScopePtr::deref`, ptr.rs 22-24; rc.rs 61-63,
arc.rs 343-345, urc.rs 186-188): the pointers to the counters and to the value. -/
def boxRef (b : Nat) : M σ (Nat × Nat) := do
  let c ← Mach.rawMut 0 (b + 1) 2
  let v ← Mach.shrRef 0 b 1
  ret (c, v)

/-- `&mut self.0` of a handle (`ScopePtr::deref_mut`, ptr.rs 28-30; rc.rs 66-68, urc.rs
191-193). -/
def boxMut (b : Nat) : M σ Nat := Mach.mutRef 0 b 3

/-- Read counter `i` of a block: `strong.get()` (rc.rs 80, 84), `strong.load(..)` (arc.rs 279). -/
def loadCnt (b i : Nat) : M σ Unit := do
  let r ← boxRef b
  Mach.readAt r.1 (b + i) 1

/-- Write counter `i` of a block without a read of its own: `fetch_add`, `fetch_sub`, a
`compare_exchange` that succeeds (arc.rs 480, 505). -/
def storeCnt (b i : Nat) : M σ Unit := do
  let r ← boxRef b
  Mach.writeAt r.1 (b + i) 1

/-- Change counter `i` of a block: `inc_strong`, `dec_strong`, `inc_weak`, `dec_weak` (rc.rs 32-54,
urc.rs 68-91). -/
def bumpCnt (b i : Nat) : M σ Unit := do
  let r ← boxRef b
  Mach.readAt r.1 (b + i) 1
  Mach.writeAt r.1 (b + i) 1

/-! ## `Rc` -/

/-- `as_ref`, `deref` (rc.rs 178-191): the `&T`. -/
def rcDeref : M σ Nat := do
  let r ← boxRef 0
  Mach.shrRef r.2 0 1

/-- `as_mut` (rc.rs 104-106): the `&mut T`. -/
def rcAsMut : M σ Nat := do
  let m ← boxMut 0
  Mach.mutRef m 0 1

/-- `is_single_ref` (rc.rs 22-24). -/
def rcIsSingle (strong : Nat) : M σ Unit := do
  let r ← boxRef 0
  Mach.readAt r.1 1 1
  if strong = 1 then Mach.readAt r.1 2 1 else ret ()

/-- `get_mut` (rc.rs 87-93). -/
def rcGetMut (strong weak : Nat) : M σ (Option Nat) := do
  rcIsSingle strong
  if strong = 1 ∧ weak = 0 then do
    let t ← rcAsMut
    ret (some t)
  else ret none

/-- `Drop for Rc` (rc.rs 161-176) with this strong count, which is not 0; the value is in a
`MaybeDropped`, so that `drop_in_place` has nothing to drop. The second test fails. -/
def rcDrop (strong : Nat) : M σ Unit := do
  loadCnt 0 1
  if strong = 1 then do
    let _ ← rcAsMut
    loadCnt 0 1
  else do
    bumpCnt 0 1
    loadCnt 0 1

/-- `try_unwrap` (rc.rs 121-128); on success the handle is dropped at the end. -/
def rcTryUnwrap (strong : Nat) : M σ Unit := do
  loadCnt 0 1
  if strong = 1 then do
    let r ← boxRef 0
    Mach.readAt r.2 0 1
    rcDrop strong
  else ret ()

/-- `make_mut` (rc.rs 130-148) for the only handle: the `&mut T`. -/
def rcMakeMutOnly : M σ Nat := do
  loadCnt 0 1
  loadCnt 0 2
  rcAsMut

/-- `make_mut` (rc.rs 130-148) if there are other `Rc`s: the value is cloned to a new block, and
the handle to this one is dropped. -/
def rcMakeMutClone (strong : Nat) : M σ Unit := do
  loadCnt 0 1
  let t ← rcDeref
  Mach.readAt t 0 1
  rcDrop strong

/-- `Weak::upgrade` (rc.rs 264-276), if the strong count is not 0. -/
def rcUpgrade : M σ Unit := do
  let r ← boxRef 0
  Mach.readAt r.1 1 1
  Mach.readAt r.1 1 1
  Mach.writeAt r.1 1 1

/-! ## `Arc` -/

/-- `deref` (arc.rs 380-383). -/
def arcDeref : M σ Nat := do
  let r ← boxRef 0
  Mach.shrRef r.2 0 1

/-- `get_mut_unchecked` (arc.rs 292-294). -/
def arcGetMutUnchecked : M σ Nat := do
  let m ← boxMut 0
  Mach.mutRef m 0 1

/-- `is_unique` (arc.rs 314-340). -/
def arcIsUnique (weak : Nat) : M σ Unit :=
  if weak = 0 then do
    storeCnt 0 2
    loadCnt 0 1
    storeCnt 0 2
  else loadCnt 0 2

/-- `get_mut` (arc.rs 296-307). -/
def arcGetMut (strong weak : Nat) : M σ (Option Nat) := do
  arcIsUnique weak
  if strong = 1 ∧ weak = 0 then do
    let t ← arcGetMutUnchecked
    ret (some t)
  else ret none

/-- `downgrade` (arc.rs 259-267): one counter reference for the read and the exchange. -/
def arcDowngrade : M σ Unit := bumpCnt 0 2

/-- `Drop for Arc` (arc.rs 499-541) and `drop_slow` (arc.rs 349-358) but for freeing the block. -/
def arcDrop (strong : Nat) : M σ Unit := do
  storeCnt 0 1
  if strong = 1 then do
    let t ← arcGetMutUnchecked
    dropAt t 0
    loadCnt 0 2
  else ret ()

/-- `try_unwrap` (arc.rs 224-249) but for freeing the block. -/
def arcTryUnwrap (strong : Nat) : M σ Unit :=
  if strong = 1 then do
    storeCnt 0 1
    let t ← arcDeref
    Mach.readAt t 0 1
    loadCnt 0 2
  else loadCnt 0 1

/-- `make_mut` (arc.rs 172-220) for the only handle: the `&mut T`. -/
def arcMakeMutOnly : M σ Nat := do
  loadCnt 0 1
  loadCnt 0 2
  arcGetMutUnchecked

/-- `make_mut` (arc.rs 172-220) if there are other `Arc`s. -/
def arcMakeMutClone (strong : Nat) : M σ Unit := do
  loadCnt 0 1
  loadCnt 0 2
  let t ← arcDeref
  Mach.readAt t 0 1
  arcDrop strong

/-! ## Programs with handles of one block -/

/-- The type of the handles. -/
inductive Kind where
  | rc | arc
deriving DecidableEq, Repr

/-- What a program does with the handles of one block and with the references it got from them.
Handles are given by their place in the list of handles. -/
inductive HCall where
  /-- `&*h` (rc.rs 178-191, arc.rs 380-383): a new `&T`. -/
  | deref (h : Nat)
  /-- Read through the `j`th `&T` got from `h`. -/
  | read (h j : Nat)
  /-- `get_mut(&mut h)` (rc.rs 87-93, arc.rs 296-307). -/
  | getMut (h : Nat)
  /-- Write through the `&mut T` got from `h`. -/
  | write (h : Nat)
  /-- `strong_count(&h)` (rc.rs 83-85, arc.rs 278-280). -/
  | strongCount (h : Nat)
  /-- `weak_count(&h)` (rc.rs 79-81, arc.rs 270-275). -/
  | weakCount (h : Nat)
  /-- `h.clone()` (rc.rs 199-204, arc.rs 468-496). -/
  | clone (h : Nat)
  /-- `downgrade(&h)` (rc.rs 74-77, arc.rs 259-267). -/
  | downgrade (h : Nat)
  /-- `upgrade` of a `Weak` (rc.rs 264-276); `arc::Weak` has no such function. -/
  | upgrade
  /-- Clone a `Weak` (rc.rs 313-322); `arc::Weak` has no such function. -/
  | cloneWeak
  /-- Drop a `Weak` (rc.rs 344-355); `arc::Weak` has no destructor. -/
  | dropWeak
  /-- `drop(h)` (rc.rs 161-176, arc.rs 499-541). -/
  | drop (h : Nat)
  /-- `try_unwrap(h)` (rc.rs 121-128, arc.rs 224-249). -/
  | tryUnwrap (h : Nat)
  /-- `make_mut(&mut h)` (rc.rs 130-148, arc.rs 172-220), but for the case that there are `Weak`s
  and no other handles. -/
  | makeMut (h : Nat)
deriving Repr

/-- The program: the block, its counters, the number of `Weak`s, and for every handle the `&T`s and
the `&mut T` got from it that are still in use. -/
structure HProg (σ : Type) where
  st : σ
  strong : Nat
  weak : Nat
  wk : Nat
  hs : List (List Nat × Option Nat)

/-- Run code of the library, then go on with the result. -/
def HProg.call {β : Type} (g : HProg σ) (m : M σ β) (k : β → HProg σ → HProg σ) :
    Option (HProg σ) :=
  match m g.st with
  | some (b, st) => some (k b { g with st := st })
  | none => none

/-- A call with `&h`: by the rules of Rust the program can no longer use the `&mut T` it got from
`h`. -/
def HProg.endMut (g : HProg σ) (h : Nat) (r : List Nat × Option Nat) : HProg σ :=
  { g with hs := g.hs.set h (r.1, none) }

/-- A call with `&mut h`, or that takes `h` and returns it: by the rules of Rust the program can no
longer use any reference it got from `h`. -/
def HProg.endAll (g : HProg σ) (h : Nat) : HProg σ := { g with hs := g.hs.set h ([], none) }

/-- One step of the program; `none`: it breaks the aliasing rules. What does not compile (a handle
or a reference that is not there) changes nothing. -/
def HProg.step (k : Kind) (g : HProg σ) : HCall → Option (HProg σ)
  | .deref h =>
    match g.hs[h]? with
    | some r =>
      g.call (match k with | .rc => rcDeref | .arc => arcDeref) fun t g =>
        { g with hs := g.hs.set h (r.1 ++ [t], none) }
    | none => some g
  | .read h j =>
    match g.hs[h]? with
    | some r =>
      match r.1[j]? with
      | some t => g.call (Mach.readAt t 0 1) fun _ g => g
      | none => some g
    | none => some g
  | .getMut h =>
    match g.hs[h]? with
    | some _ =>
      g.call (match k with
        | .rc => rcGetMut g.strong g.weak
        | .arc => arcGetMut g.strong g.weak) fun t g =>
        { g with hs := g.hs.set h ([], t) }
    | none => some g
  | .write h =>
    match g.hs[h]? with
    | some r =>
      match r.2 with
      | some t => g.call (Mach.writeAt t 0 1) fun _ g => g
      | none => some g
    | none => some g
  | .strongCount h =>
    match g.hs[h]? with
    | some r => g.call (loadCnt 0 1) fun _ g => g.endMut h r
    | none => some g
  | .weakCount h =>
    match g.hs[h]? with
    | some r => g.call (loadCnt 0 2) fun _ g => g.endMut h r
    | none => some g
  | .clone h =>
    match g.hs[h]? with
    | some r =>
      g.call (match k with | .rc => bumpCnt 0 1 | .arc => storeCnt 0 1) fun _ g =>
        { g with strong := g.strong + 1, hs := g.hs.set h (r.1, none) ++ [([], none)] }
    | none => some g
  | .downgrade h =>
    match g.hs[h]? with
    | some r =>
      g.call (match k with | .rc => bumpCnt 0 2 | .arc => arcDowngrade) fun _ g =>
        { g.endMut h r with weak := g.weak + 1, wk := g.wk + 1 }
    | none => some g
  | .upgrade =>
    if k = .rc ∧ 0 < g.wk ∧ 0 < g.strong then
      g.call rcUpgrade fun _ g => { g with strong := g.strong + 1, hs := g.hs ++ [([], none)] }
    else some g
  | .cloneWeak =>
    if k = .rc ∧ 0 < g.wk then
      g.call (bumpCnt 0 2) fun _ g => { g with weak := g.weak + 1, wk := g.wk + 1 }
    else some g
  | .dropWeak =>
    if 0 < g.wk then
      match k with
      | .rc => g.call (bumpCnt 0 2) fun _ g => { g with weak := g.weak - 1, wk := g.wk - 1 }
      | .arc => some { g with wk := g.wk - 1 }
    else some g
  | .drop h =>
    match g.hs[h]? with
    | some _ =>
      match k with
      | .rc =>
        g.call (rcDrop g.strong) fun _ g =>
          { g with strong := if g.strong = 1 then 1 else g.strong - 1, hs := g.hs.eraseIdx h }
      | .arc =>
        g.call (arcDrop g.strong) fun _ g =>
          { g with strong := g.strong - 1, hs := g.hs.eraseIdx h }
    | none => some g
  | .tryUnwrap h =>
    match g.hs[h]? with
    | some _ =>
      match k with
      | .rc =>
        g.call (rcTryUnwrap g.strong) fun _ g =>
          if g.strong = 1 then { g with hs := g.hs.eraseIdx h } else g.endAll h
      | .arc =>
        g.call (arcTryUnwrap g.strong) fun _ g =>
          if g.strong = 1 then { g with strong := 0, hs := g.hs.eraseIdx h } else g.endAll h
    | none => some g
  | .makeMut h =>
    match g.hs[h]? with
    | some _ =>
      if g.strong = 1 then
        if g.weak = 0 then
          g.call (match k with | .rc => rcMakeMutOnly | .arc => arcMakeMutOnly) fun t g =>
            { g with hs := g.hs.set h ([], some t) }
        else some g
      else
        g.call (match k with
          | .rc => rcMakeMutClone g.strong
          | .arc => arcMakeMutClone g.strong) fun _ g =>
          { g with strong := g.strong - 1, hs := g.hs.eraseIdx h }
    | none => some g

/-- A program, step by step. -/
def HProg.run (k : Kind) : List HCall → HProg σ → Option (HProg σ)
  | [], g => some g
  | c :: cs, g =>
    match g.step k c with
    | some g' => HProg.run k cs g'
    | none => none

/-- A new `Rc` or `Arc` (rc.rs 110-119, arc.rs 135-150). -/
def HProg.start : HProg σ := ⟨Mach.heap 3, 1, 0, 0, [([], none)]⟩

/-! ## `Urc`

The master is the block at 0: the data, `strong_fence`, `weak_fence`. A fence is a block at `f`:
its pointer to the master, `strong`, `weak`. -/

/-- `&self.fence.master` and through it `&Master` (urc.rs 176-178). -/
def masterRef (f : Nat) : M σ (Nat × Nat) := do
  let r ← boxRef f
  Mach.readAt r.2 f 1
  boxRef 0

/-- `&mut self.fence.master` and through it `&mut Master` (urc.rs 181-183). -/
def masterMut (f : Nat) : M σ Nat := do
  let m ← boxMut f
  let p ← Mach.mutRef m f 1
  Mach.readAt p f 1
  boxMut 0

/-- The `data` field of a new `Urc` (urc.rs 218-236): a `&T` made once, from the new master. -/
def urcData : M σ Nat := do
  let r ← boxRef 0
  Mach.shrRef r.2 0 1

/-- The block of a new fence (urc.rs 231, 634). -/
def newFence (f : Nat) : M σ Unit := Mach.alloc f 3

/-- `deref` (urc.rs 462-476): through the `data` field. -/
def urcDeref (d : Nat) : M σ Nat := Mach.shrRef d 0 1

/-- The references a `Weak` has (urc.rs 127-132): to its fence (counters and master field), and to
the master (counters and data). -/
structure UWeak where
  f : Nat
  fence : Nat × Nat
  master : Nat × Nat
deriving Repr

/-- `downgrade` (urc.rs 165-173). -/
def urcDowngrade (f : Nat) : M σ UWeak := do
  bumpCnt f 2
  let r ← boxRef f
  let q ← masterRef f
  ret ⟨f, r, q⟩

/-- `self.fence()` of a `Weak` (urc.rs 442-444): the references to the counters and to the rest. -/
def weakFence (w : UWeak) : M σ (Nat × Nat) := do
  let c ← Mach.rawMut w.fence.1 (w.f + 1) 2
  let v ← Mach.shrRef w.fence.2 w.f 1
  ret (c, v)

/-- `fence_weak_count` and `fence_strong_count` of a `Weak` (urc.rs 452-459). -/
def weakLoad (w : UWeak) (i : Nat) : M σ Unit := do
  let r ← weakFence w
  Mach.readAt r.1 (w.f + i) 1

/-- `Drop for Weak` (urc.rs 526-546) if the fence has others: `dec_weak`. -/
def weakDropOther (w : UWeak) : M σ Unit := do
  weakLoad w 2
  weakLoad w 1
  let r ← weakFence w
  Mach.readAt r.1 (w.f + 2) 1
  Mach.writeAt r.1 (w.f + 2) 1

/-- `self.master()` of a `Weak` (urc.rs 447-449): the references to the counters and to the data. -/
def weakMaster (w : UWeak) : M σ (Nat × Nat) := do
  let c ← Mach.rawMut w.master.1 1 2
  let v ← Mach.shrRef w.master.2 0 1
  ret (c, v)

/-- `Drop for Weak` (urc.rs 526-546) for the last handle of a fence; `last`: the fence is also the
last that had only `Weak`s. `Fence` and `Master` have nothing to drop, so that both calls of
`drop_in_place` do nothing. -/
def weakDropLast (w : UWeak) (last : Bool) : M σ Unit := do
  weakLoad w 2
  weakLoad w 1
  let q ← weakMaster w
  let _ ← weakFence w
  Mach.writeAt q.1 2 1
  if last then Mach.readAt q.1 1 1 else ret ()

/-- `Drop for Urc` (urc.rs 496-524) if the fence has others: `dec_strong`. -/
def urcDropOther (f : Nat) : M σ Unit := do
  loadCnt f 1
  loadCnt f 2
  bumpCnt f 1

/-- `Drop for Urc` (urc.rs 496-524) for the last handle of a fence, but for freeing the blocks;
`last`: it is also the last fence. -/
def urcDropFence (f : Nat) (last : Bool) : M σ Unit := do
  loadCnt f 1
  loadCnt f 2
  let m ← masterMut f
  let q ← Mach.rawMut m 0 3
  let m' ← Mach.mutRef q 0 3
  let _ ← boxMut f
  Mach.writeAt m' 1 1
  if last then do
    let _ ← Mach.mutRef m' 0 1
    Mach.readAt m' 2 1
  else ret ()

/-- `envelop` (urc.rs 619-640): `strong_fence.fetch_add` through the master, and a new fence. -/
def urcEnvelop (f f' : Nat) : M σ Unit := do
  let r ← masterRef f
  Mach.writeAt r.1 1 1
  newFence f'

/-- `is_unique` (urc.rs 397-418) if the first two tests succeed. -/
def urcIsUnique (f : Nat) : M σ Unit := do
  let r ← masterRef f
  Mach.writeAt r.1 2 1
  let r ← masterRef f
  Mach.readAt r.1 1 1
  let r ← masterRef f
  Mach.writeAt r.1 2 1
  loadCnt f 1
  loadCnt f 2

/-- `get_mut_unchecked` (urc.rs 375-378): through the master. -/
def urcGetMutUnchecked (f : Nat) : M σ Nat := do
  let m ← masterMut f
  Mach.mutRef m 0 1

/-- `get_mut` (urc.rs 381-392) of the only handle. -/
def urcGetMut (f : Nat) : M σ Nat := do
  urcIsUnique f
  urcGetMutUnchecked f

/-- `move_out` of `make_mut` (urc.rs 310-321) up to where the handle gets a new master: read the
data, set both strong counters to zero. -/
def urcMoveOut (f d : Nat) : M σ Unit := do
  let t ← urcDeref d
  Mach.readAt t 0 1
  let m ← boxMut f
  Mach.writeAt m (f + 1) 1
  let m ← masterMut f
  Mach.writeAt m 1 1

/-- `make_mut` from there on (urc.rs 318-319): a new `Urc` with the value, and its `&mut T`; the
result is also the `data` field of the new `Urc`. -/
def urcMakeMutNew : M σ (Nat × Nat) := do
  let d ← urcData
  let t ← urcGetMutUnchecked 3
  ret (d, t)

/-- `make_mut` (urc.rs 296-369) of a handle whose fence has others, as far as the old master and
fence are concerned: the tests, the clone of the data, and the drop of the old handle; `sole`: only
this fence has `Urc`s, and there are `Weak`s of it. -/
def urcMakeMutClone (f d : Nat) (sole : Bool) : M σ Unit := do
  let r ← masterRef f
  Mach.readAt r.1 1 1
  if sole then do
    loadCnt f 2
    let r ← masterRef f
    Mach.readAt r.1 2 1
    loadCnt f 1
    let t ← urcDeref d
    Mach.readAt t 0 1
    urcDropOther f
  else do
    let t ← urcDeref d
    Mach.readAt t 0 1
    urcDropOther f

/-- `try_unwrap` (urc.rs 258-294) that gives the handle back; `sole`: only this fence has `Urc`s (the
exchange is made). -/
def urcTryUnwrapErr (f : Nat) (sole : Bool) : M σ Unit :=
  if sole then do
    let r ← masterRef f
    Mach.writeAt r.1 1 1
    loadCnt f 1
  else do
    let r ← masterRef f
    Mach.readAt r.1 1 1

/-- `try_unwrap` (urc.rs 258-294) of the only handle if its fence has `Weak`s. (If it has none, the
function reads the fence after it was freed, see C71.) -/
def urcTryUnwrapOk (f : Nat) : M σ Unit := do
  let r ← masterRef f
  Mach.writeAt r.1 1 1
  loadCnt f 1
  let r ← masterRef f
  let t ← Mach.shrRef r.2 0 1
  Mach.readAt t 0 1
  loadCnt f 2

/-- What a program does with `Urc`s and `Weak`s of one master, but for `get_mut` and `make_mut` that
give a `&mut` to the data of this master, and dropping the last `Urc` of a fence. -/
inductive UCall where
  /-- `&*u` for a handle (urc.rs 462-476). -/
  | deref
  /-- Read through the `j`th `&T`. -/
  | read (j : Nat)
  /-- `u.clone()` for a handle of fence `n` (urc.rs 484-493). -/
  | clone (n : Nat)
  /-- `fence_strong_count`, `fence_weak_count` (urc.rs 140-147). -/
  | counts (n : Nat)
  /-- `is_sole_strong_fence` (urc.rs 150-153). -/
  | sole (n : Nat)
  /-- `get_mut` of a handle of fence `n` that has others: all tests of `is_unique` are done, and one
  of the last two fails (urc.rs 381-418). -/
  | getMutNone (n : Nat)
  /-- `downgrade` (urc.rs 165-173). -/
  | downgrade (n : Nat)
  /-- Counts through the `j`th `Weak` (urc.rs 452-459). -/
  | weakCounts (j : Nat)
  /-- Drop the `j`th `Weak`, not the last handle of its fence (urc.rs 526-546). -/
  | weakDrop (j : Nat)
  /-- Drop the `j`th `Weak`, the last handle of its fence (urc.rs 526-546). -/
  | weakDropLast (j : Nat) (last : Bool)
  /-- `make_mut` that clones the data to a new master (urc.rs 296-369). -/
  | makeMutClone (n : Nat) (sole : Bool)
  /-- `try_unwrap` that gives the handle back (urc.rs 258-294). -/
  | tryUnwrapErr (n : Nat) (sole : Bool)
  /-- `try_unwrap` that gives the value, of a handle whose fence has `Weak`s (urc.rs 258-294). -/
  | tryUnwrapOk (n : Nat)
  /-- Drop a handle of fence `n`, not the last (urc.rs 496-524). -/
  | drop (n : Nat)
  /-- `envelop` of a handle of fence `n` (urc.rs 619-640). -/
  | envelop (n : Nat)
deriving Repr

/-- The program: the blocks, the number of fences, the `data` field (the same in all `Urc`s: it is
copied by `clone` and `envelop`, urc.rs 490, 635), the `&T`s and the `Weak`s. -/
structure UProg (σ : Type) where
  st : σ
  n : Nat
  d : Nat
  shr : List Nat
  weaks : List UWeak

/-- Run code of the library, then go on with the result. -/
def UProg.call {β : Type} (g : UProg σ) (m : M σ β) (k : β → UProg σ → UProg σ) :
    Option (UProg σ) :=
  match m g.st with
  | some (b, st) => some (k b { g with st := st })
  | none => none

/-- Where fence `n` is. -/
def fenceAt (n : Nat) : Nat := 3 + 3 * n

/-- One step of the program; `none`: it breaks the aliasing rules. What does not compile changes
nothing. -/
def UProg.step (g : UProg σ) : UCall → Option (UProg σ)
  | .deref => g.call (urcDeref g.d) fun t g => { g with shr := g.shr ++ [t] }
  | .read j =>
    match g.shr[j]? with
    | some t => g.call (Mach.readAt t 0 1) fun _ g => g
    | none => some g
  | .clone n => if n < g.n then g.call (bumpCnt (fenceAt n) 1) fun _ g => g else some g
  | .counts n =>
    if n < g.n then
      g.call (do loadCnt (fenceAt n) 1; loadCnt (fenceAt n) 2) fun _ g => g
    else some g
  | .sole n =>
    if n < g.n then
      g.call (do let r ← masterRef (fenceAt n); Mach.readAt r.1 1 1) fun _ g => g
    else some g
  | .getMutNone n => if n < g.n then g.call (urcIsUnique (fenceAt n)) fun _ g => g else some g
  | .downgrade n =>
    if n < g.n then
      g.call (urcDowngrade (fenceAt n)) fun w g => { g with weaks := g.weaks ++ [w] }
    else some g
  | .weakCounts j =>
    match g.weaks[j]? with
    | some w => g.call (do weakLoad w 2; weakLoad w 1) fun _ g => g
    | none => some g
  | .weakDrop j =>
    match g.weaks[j]? with
    | some w => g.call (weakDropOther w) fun _ g => { g with weaks := g.weaks.eraseIdx j }
    | none => some g
  | .weakDropLast j last =>
    match g.weaks[j]? with
    | some w => g.call (weakDropLast w last) fun _ g => { g with weaks := g.weaks.eraseIdx j }
    | none => some g
  | .makeMutClone n sole =>
    if n < g.n then g.call (urcMakeMutClone (fenceAt n) g.d sole) fun _ g => g else some g
  | .tryUnwrapErr n sole =>
    if n < g.n then g.call (urcTryUnwrapErr (fenceAt n) sole) fun _ g => g else some g
  | .tryUnwrapOk n => if n < g.n then g.call (urcTryUnwrapOk (fenceAt n)) fun _ g => g else some g
  | .drop n => if n < g.n then g.call (urcDropOther (fenceAt n)) fun _ g => g else some g
  | .envelop n =>
    if n < g.n then
      g.call (urcEnvelop (fenceAt n) (fenceAt g.n)) fun _ g => { g with n := g.n + 1 }
    else some g

/-- A program, step by step. -/
def UProg.run : List UCall → UProg σ → Option (UProg σ)
  | [], g => some g
  | c :: cs, g =>
    match g.step c with
    | some g' => UProg.run cs g'
    | none => none

/-- What a program does with `Urc`s and `Weak`s of one master, but for writing. -/
inductive UAll where
  /-- One of the calls above. -/
  | of (c : UCall)
  /-- `get_mut` of the only handle (urc.rs 381-392); the `&mut T` is then one of the references that
  the program reads through. -/
  | getMut (n : Nat)
  /-- Drop the last handle of fence `n` (urc.rs 496-524). -/
  | dropFence (n : Nat) (last : Bool)
  /-- `make_mut` that moves the data to a new master (urc.rs 310-321). -/
  | moveOut (n : Nat)
deriving Repr

/-- One step of the program; `none`: it breaks the aliasing rules. -/
def UProg.stepAll (g : UProg σ) : UAll → Option (UProg σ)
  | .of c => g.step c
  | .getMut n =>
    if n < g.n then g.call (urcGetMut (fenceAt n)) fun t g => { g with shr := g.shr ++ [t] }
    else some g
  | .dropFence n last =>
    if n < g.n then g.call (urcDropFence (fenceAt n) last) fun _ g => g else some g
  | .moveOut n =>
    if n < g.n then g.call (urcMoveOut (fenceAt n) g.d) fun _ g => g else some g

/-- A program, step by step. -/
def UProg.runAll : List UAll → UProg σ → Option (UProg σ)
  | [], g => some g
  | c :: cs, g =>
    match g.stepAll c with
    | some g' => UProg.runAll cs g'
    | none => none

/-- The state after `try_new` (urc.rs 218-236): a master, one fence, and the `data` field. -/
def UProg.start : Option (UProg σ) :=
  match urcData (Mach.heap 6) with
  | some (d, st) => some ⟨st, 1, d, [], []⟩
  | none => none

end Lokky.Alias
