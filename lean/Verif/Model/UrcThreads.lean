import Verif.Model.Urc
import Verif.Model.ArcMem

/-!
# `Urc<T>` (/repo/src/urc.rs) as a system of threads

Every step of a thread makes at most one access to memory that other threads can see: an atomic operation on a
counter of a `Master`, or an access to its value; steps of different threads interleave in any order.
Memory is that of `Model/ArcMem.lean`, with the orderings of the source: counts are the messages of
the counters, a load may read a count that is not the latest, and threads know of accesses (`ArcMem`). There,
object `p` is master `p`, `strong` is `strong_fence` and `weak` is `weak_fence`. Two accesses that are not
ordered are undefined behaviour (`UB.race`).

A `Fence` is only used by the thread that has its handles (`Urc` and `Weak` are not `Send` and not `Sync`, because
`ScopePtr` has a `NonNull`, ptr.rs 12-17), so that accesses to its counts (`Cell`s, urc.rs 39-40), and
allocating and releasing it, are put together with the next access that others can see. So is the
allocation of a new `Master`.

Handles are named by their position in a list; a handle has an owner, the thread it is in, except if it is in an
`Envelope`, which any thread can open (`recv`). An envelope that is dropped is taken as opened, and the handle
as dropped.

Simplifications: as for `Model/ArcMem.lean`; `T::clone` returns an equal value or panics; references to the value
are not handed to other threads. Left out: `downcast` (safe code cannot make a `Urc<dyn Any>`; see Verif/Model/Downcast.lean) and
`ScopePtr::into_inner` of a fence (urc.rs 96-104; ptr.rs 202-208), which releases it twice (C84).
-/

namespace Lokky
variable {α : Type}

/-- Where a handle is: with thread `t`, or in an `Envelope` (a `Urc` of fence `f`; scope.rs 191-220). -/
inductive UrcHold
  | own (t : Nat) (k : UrcHand)
  | env (f : Nat)
deriving DecidableEq, Repr

/-- What a thread is in the middle of, with a `Urc` named `h`, of fence `f`, of master `p`. -/
inductive UrcOp (α : Type)
  /-- `is_unique`: about to load `strong_fence` (urc.rs 406) -/
  | get1 (h f p : Nat)
  /-- `is_unique`: about to store `weak_fence` (urc.rs 408) -/
  | get2 (h f p : Nat)
  /-- the client has a `&mut T` from `get_mut` or `make_mut` (urc.rs 375-392) -/
  | held (h f p : Nat)
  /-- `drop` of a `Urc`: about to load `weak_fence` (urc.rs 514); `k`: handle, fence and master that `make_mut`
  goes on with -/
  | fin (p : Nat) (k : Option (Nat × Nat × Nat))
  /-- `drop` of a `Weak`: about to load `strong_fence` (urc.rs 536) -/
  | wfin (p : Nat)
  /-- `try_unwrap`: about to move the value out (urc.rs 276) -/
  | unw1 (h f p : Nat)
  /-- `make_mut`: `strong_fence` was 1; about to load `weak_fence` (urc.rs 327, 356) -/
  | mm1 (h f p : Nat)
  /-- `make_mut`: incrementing `weak_fence`, which was `w` (urc.rs 357; arc.rs 73-95) -/
  | mm2 (h f p w : Nat)
  /-- `make_mut`: about to move the value out (urc.rs 312) -/
  | mv0 (h f p : Nat)
  /-- `make_mut`: about to set the counts to zero and to move on to a new `Urc` (urc.rs 315-318) -/
  | mv1 (h f p : Nat) (x : α)
  /-- `make_mut`: about to clone the value (urc.rs 304) -/
  | mmC (h f p : Nat)
  /-- `make_mut`: about to make a new `Urc` of the copy and to drop the old one (urc.rs 304) -/
  | mmA (h f p : Nat) (x : α)
deriving DecidableEq, Repr

/-- The whole system: the values of masters, and whether they are there (not moved out); fences (`none`:
released); handles (`none`: gone); what each thread is in the middle of; the results of calls (`none`: panic),
latest first; and memory. -/
structure UrcSys (α : Type) where
  vals : List (α × Bool)
  fences : List (Option UrcFence)
  hands : List (Option UrcHold)
  threads : List (Option (UrcOp α))
  log : List (Nat × Option (UrcOut α))
  mem : ArcMem

/-- `n` threads that have done nothing yet. -/
def UrcSys.start (n : Nat) : UrcSys α := ⟨[], [], [], List.replicate n none, [], .start⟩

/-- What is not determined by the program: the message a load reads, whether a compare-and-exchange fails on that
message (or, if it is a weak one, for no reason), the answer of the allocator, whether `T::clone` panics,
and what the client writes through a `&mut T` (`none`: it lets go of it). -/
structure UrcChoice (α : Type) where
  pos : Nat := 0
  fail : Bool := false
  grant : Bool := true
  boom : Bool := false
  write : Option α := none

namespace ArcMem

/-- `Race`, as a test. -/
def racy (m : ArcMem) (t p : Nat) (k : ArcKind) : Bool :=
  (List.range m.evts.length).any fun i =>
    match m.evts[i]? with
    | some (q, k') => q == p && k'.clash k && !(m.thr t).contains i
    | none => false

/-- `Readable`, as a test, for a message that is there. -/
def readable (m : ArcMem) (t : Nat) (c : ArcCtr) (p j : Nat) : Bool :=
  j < (m.msgs c p).length &&
    ((m.msgs c p).drop (j + 1)).all fun x => !(m.thr t).contains x.evt

/-- The message a load reads. -/
def pick (m : ArcMem) (t : Nat) (c : ArcCtr) (p j : Nat) : Nat :=
  if m.readable t c p j then j else m.latest c p

end ArcMem

namespace UrcT
variable (dbg : Bool) (mx : Nat)

/-! ## Memory -/

/-- Access to the value of a master. -/
def touch (t p : Nat) (k : ArcKind) : M (UrcSys α) Unit := fun s =>
  if s.mem.racy t p k then .ub .race
  else .ok () { s with mem := s.mem.apply t 0 (.touch p k) }

/-- A load. -/
def load (ch : UrcChoice α) (t : Nat) (c : ArcCtr) (p : Nat) (acq : Bool) : M (UrcSys α) Nat := fun s =>
  let j := s.mem.pick t c p ch.pos
  match (s.mem.msgs c p)[j]? with
  | some x => if s.mem.racy t p .atomic then .ub .race
    else .ok x.val { s with mem := s.mem.apply t j (.load c p acq) }
  | none => .ub .oob

/-- A read-modify-write; whether it is `Acquire` may depend on the count (`fence(Acquire)`). -/
def rmw (t : Nat) (c : ArcCtr) (p : Nat) (f : Nat → Nat) (acq : Nat → Bool) (rel : Bool) :
    M (UrcSys α) Nat := fun s =>
  match (s.mem.msgs c p).getLast? with
  | some x => if s.mem.racy t p .atomic then .ub .race
    else .ok x.val { s with mem := s.mem.apply t 0 (.rmw c p (f x.val) (acq x.val) rel) }
  | none => .ub .oob

/-- A store. -/
def store (t : Nat) (c : ArcCtr) (p v : Nat) (rel : Bool) : M (UrcSys α) Unit := fun s =>
  match (s.mem.msgs c p).getLast? with
  | some _ => if s.mem.racy t p .atomic then .ub .race
    else .ok () { s with mem := s.mem.apply t 0 (.store c p v rel) }
  | none => .ub .oob

/-- `compare_exchange` (`weak`: `compare_exchange_weak`) from `u` to `v`; `Relaxed` if it fails. Returns the count
if it fails. -/
def cas (ch : UrcChoice α) (weak : Bool) (t : Nat) (c : ArcCtr) (p u v : Nat) (acq rel : Bool) :
    M (UrcSys α) (Option Nat) := fun s =>
  let j := s.mem.pick t c p ch.pos
  match (s.mem.msgs c p)[j]?, (s.mem.msgs c p).getLast? with
  | some y, some x =>
    if s.mem.racy t p .atomic then .ub .race
    else if ch.fail && (weak || y.val != u) then
      .ok (some y.val) { s with mem := s.mem.apply t j (.load c p false) }
    else if x.val = u then .ok none { s with mem := s.mem.apply t 0 (.rmw c p v acq rel) }
    else .ok (some x.val) { s with mem := s.mem.apply t (s.mem.latest c p) (.load c p false) }
  | _, _ => .ub .oob

/-- The value (urc.rs 462-467; marker.rs 18-22). -/
def data (p : Nat) : M (UrcSys α) α := fun s =>
  match s.vals[p]? with
  | some (v, true) => .ok v s
  | some (_, false) => .ub .uninit
  | none => .ub .oob

/-- Storing the value, or that it was moved out. -/
def put (p : Nat) (x : α) (b : Bool) : M (UrcSys α) Unit :=
  M.modify fun s => { s with vals := s.vals.set p (x, b) }

/-- Access to a fence (urc.rs 135-137, 186-193, 441-444). -/
def fence (f : Nat) : M (UrcSys α) UrcFence := fun s =>
  match s.fences[f]? with
  | some (some F) => .ok F s
  | _ => .ub .oob

/-- Storing into a fence (urc.rs 39-40). -/
def putFence (f : Nat) (F : UrcFence) : M (UrcSys α) Unit :=
  M.modify fun s => { s with fences := s.fences.set f (some F) }

/-- `ManuallyDrop::drop` on a `ScopePtr<Fence<T>>` (ptr.rs 33-41). -/
def freeFence (f : Nat) : M (UrcSys α) Unit := fun s =>
  match s.fences[f]? with
  | some (some _) => .ok () { s with fences := s.fences.set f none }
  | _ => .ub .badFree

/-! ## Threads and handles -/

/-- The thread goes on with `op`. -/
def goto (t : Nat) (op : UrcOp α) : M (UrcSys α) Unit :=
  M.modify fun s => { s with threads := s.threads.set t (some op) }

/-- The call is over. -/
def done (t : Nat) (out : UrcOut α) : M (UrcSys α) Unit :=
  M.modify fun s => { s with threads := s.threads.set t none, log := (t, some out) :: s.log }

/-- A panic ends the call. -/
def caught (t : Nat) (m : M (UrcSys α) Unit) : M (UrcSys α) Unit := fun s =>
  match m s with
  | .panic s' => .ok () { s' with threads := s'.threads.set t none, log := (t, none) :: s'.log }
  | r => r

/-- Thread `t` gets a handle. -/
def give (t : Nat) (k : UrcHand) : M (UrcSys α) Unit :=
  M.modify fun s => { s with hands := s.hands ++ [some (.own t k)] }

/-- The name of the next handle. -/
def name : M (UrcSys α) Nat := fun s => .ok s.hands.length s

/-- Handle `h` is gone, or another one. -/
def setHand (h : Nat) (k : Option UrcHold) : M (UrcSys α) Unit :=
  M.modify fun s => { s with hands := s.hands.set h k }

/-! ## The functions -/

/-- `fetch_add(1)` and `fetch_sub(1)` wrap around at `usize::MAX`, which is `mx`. -/
def incr (n : Nat) : Nat := if n = mx then 0 else n + 1
def decr (n : Nat) : Nat := if n = 0 then mx else n - 1

/-- `inc_strong` (urc.rs 74-77). -/
def incStrong (f : Nat) : M (UrcSys α) Unit := do
  let F ← fence f
  if dbg = true ∧ F.strong = mx then M.boom else putFence f { F with strong := incr mx F.strong }

/-- `inc_weak` (urc.rs 68-71). -/
def incWeak (f : Nat) : M (UrcSys α) Unit := do
  let F ← fence f
  if dbg = true ∧ F.weak = mx then M.boom else putFence f { F with weak := incr mx F.weak }

/-- `dec_strong` (urc.rs 87-91). -/
def decStrong (f : Nat) : M (UrcSys α) Unit := do
  let F ← fence f
  if dbg = true ∧ F.strong = 0 then M.boom else putFence f { F with strong := decr mx F.strong }

/-- `dec_weak` (urc.rs 80-84). -/
def decWeak (f : Nat) : M (UrcSys α) Unit := do
  let F ← fence f
  if dbg = true ∧ F.weak = 0 then M.boom else putFence f { F with weak := decr mx F.weak }

/-- `new`, `try_new` (urc.rs 213-236) where memory is granted: fence and master. -/
def alloc (t : Nat) (x : α) : M (UrcSys α) (Nat × Nat) := fun s =>
  let p := s.vals.length
  if s.mem.racy t p .init then .ub .race
  else .ok (s.fences.length, p) { s with
    vals := s.vals ++ [(x, true)]
    fences := s.fences ++ [some ⟨1, 0, p⟩]
    mem := s.mem.apply t 0 (.init p) }

/-- `drop` of a `Urc` (urc.rs 496-524) up to `fetch_sub`; returns the master if `strong_fence` was 1. -/
def dropUrc (t f : Nat) : M (UrcSys α) (Option Nat) := do
  let F ← fence f
  if F.strong = 1 ∧ F.weak = 0 then do
    freeFence f
    let v ← rmw t .strong F.master (decr mx) (fun v => v == 1) true
    pure (if v = 1 then some F.master else none)
  else do
    decStrong dbg mx f
    pure none

/-- `drop` of a `Weak` (urc.rs 526-546) up to `fetch_sub`; returns whether `weak_fence` was 1. -/
def dropWeak (t f m : Nat) : M (UrcSys α) Bool := do
  let F ← fence f
  if F.weak = 1 ∧ F.strong = 0 then do
    let v ← rmw t .weak m (decr mx) (fun v => v == 1) true
    pure (v == 1)
  else do
    decWeak dbg mx f
    pure false

/-- `envelop` (urc.rs 616-640). -/
def envelop (ch : UrcChoice α) (t f : Nat) : M (UrcSys α) Unit := do
  let F ← fence f
  let _ ← rmw t .strong F.master (incr mx) (fun _ => true) false
  if ch.grant then
    M.modify fun s => { s with
      fences := s.fences ++ [some ⟨1, 0, F.master⟩]
      hands := s.hands ++ [some (.env s.fences.length)]
      mem := { s.mem with hnd := fun h => if h = s.hands.length then s.mem.thr t else s.mem.hnd h } }
  else M.boom

end UrcT

/-- Calls on a handle. `poke x` writes `x` through `&T`, as `Cell::set` does. -/
inductive UrcCall (α : Type)
  | clone | downgrade | strongCount | weakCount | intoFence | envelop | read | isSole | getMut | makeMut
  | tryUnwrap | drop
  | poke (x : α)
deriving DecidableEq

namespace UrcT
variable (dbg : Bool) (mx : Nat)

/-- Thread `t` begins a call on its handle `h`, which is `k`, and goes on up to the first access to the master. A
call that the handle does not have cannot be made (`UrcAct.Enabled`). -/
def call (ch : UrcChoice α) (t h : Nat) : UrcCall α → UrcHand → M (UrcSys α) Unit
  -- `clone` (urc.rs 485-493)
  | .clone, .urc f => do
    incStrong dbg mx f
    give t (.urc f)
    done t .unit
  -- `downgrade` (urc.rs 165-173)
  | .downgrade, .urc f => do
    incWeak dbg mx f
    let F ← fence f
    give t (.weak f F.master)
    done t .unit
  -- `fence_strong_count` (urc.rs 145-147), `strong_count` (urc.rs 53-55)
  | .strongCount, .urc f | .strongCount, .fence f => do
    let F ← fence f
    done t (.nat F.strong)
  -- `fence_weak_count` (urc.rs 140-142), `weak_count` (urc.rs 63-65)
  | .weakCount, .urc f | .weakCount, .fence f => do
    let F ← fence f
    done t (.nat F.weak)
  -- `try_into_fence` (urc.rs 196-208)
  | .intoFence, .urc f => do
    let F ← fence f
    if F.strong = 1 ∧ F.weak = 0 then do
      setHand h (some (.own t (.fence f)))
      done t (.bool true)
    else done t (.bool false)
  -- `envelop` (urc.rs 616-640)
  | .envelop, .urc f => do
    envelop mx ch t f
    done t .unit
  -- `as_ref`, `deref`, `borrow` (urc.rs 462-482)
  | .read, .urc f => do
    let F ← fence f
    touch t F.master .read
    let v ← data F.master
    done t (.val v)
  -- writing through `&T`
  | .poke x, .urc f => do
    let F ← fence f
    touch t F.master .write
    let _ ← data F.master
    put F.master x true
    done t .unit
  -- `is_sole_strong_fence` (urc.rs 150-153)
  | .isSole, .urc f => do
    let F ← fence f
    let v ← load ch t .strong F.master true
    done t (.bool (v == 1))
  -- `get_mut`, `is_unique` (urc.rs 381-392, 397-405): `compare_exchange(0, usize::MAX, Acquire, Relaxed)`
  | .getMut, .urc f => do
    let F ← fence f
    match ← cas ch false t .weak F.master 0 mx true false with
    | none => goto t (.get1 h f F.master)
    | some _ => done t (.bool false)
  -- `make_mut` (urc.rs 297-323): `load(Acquire)`
  | .makeMut, .urc f => do
    let F ← fence f
    let v ← load ch t .strong F.master true
    if v = 1 then goto t (.mm1 h f F.master) else goto t (.mmC h f F.master)
  -- `try_unwrap` (urc.rs 258-273): `compare_exchange(1, 0, Acquire, Relaxed)`
  | .tryUnwrap, .urc f => do
    let F ← fence f
    match ← cas ch false t .strong F.master 1 0 true false with
    | none => if F.strong = 1 then goto t (.unw1 h f F.master) else done t (.opt none)
    | some _ => done t (.opt none)
  -- `drop` (urc.rs 496-524)
  | .drop, .urc f => do
    setHand h none
    match ← dropUrc dbg mx t f with
    | some p => goto t (.fin p none)
    | none => done t .unit
  -- `drop` of a `Weak` (urc.rs 526-546)
  | .drop, .weak f m => do
    setHand h none
    if ← dropWeak dbg mx t f m then goto t (.wfin m) else done t .unit
  -- `drop` of a fence that was taken out (ptr.rs 33-41)
  | .drop, .fence f => do
    setHand h none
    freeFence f
    done t .unit
  | _, _ => pure ()

/-- One step of thread `t`, which is in the middle of `op`. -/
def step (ch : UrcChoice α) (t : Nat) : UrcOp α → M (UrcSys α) Unit
  -- `load(Acquire)` (urc.rs 406)
  | .get1 h f p => do
    let v ← load ch t .strong p true
    if v = 1 then goto t (.get2 h f p) else done t (.bool false)
  -- `store(0, Release)` (urc.rs 408-411)
  | .get2 h f p => do
    store t .weak p 0 true
    let F ← fence f
    if F.strong = 1 ∧ F.weak = 0 then goto t (.held h f p) else done t (.bool false)
  -- the client writes through the reference, or lets go of it
  | .held _ _ p =>
    match ch.write with
    | some x => do
      touch t p .write
      let _ ← data p
      put p x true
    | none => done t .unit
  -- `load(Acquire)` (urc.rs 514-516); dropping `MaybeDropped` and `Master` does nothing (marker.rs 18-22)
  | .fin p k => do
    let _ ← load ch t .weak p true
    match k with
    | some (h, f, q) => goto t (.held h f q)
    | none => done t .unit
  -- `load(Acquire)` (urc.rs 536-538)
  | .wfin p => do
    let _ ← load ch t .strong p true
    done t .unit
  -- `ptr::read`, then the fence is released if there is no `Weak`, but then used (urc.rs 276-293)
  | .unw1 h f p => do
    touch t p .write
    let v ← data p
    put p v false
    let F ← fence f
    let _ ← (if F.weak = 0 then do
        freeFence f
        let _ ← fence f
        pure ()
      else pure () : M (UrcSys α) Unit)
    setHand h none
    done t (.opt (some v))
  -- `load(Acquire)` (urc.rs 326-347, 356)
  | .mm1 h f p => do
    let w ← load ch t .weak p true
    let F ← fence f
    if F.weak = 0 then goto t (.mm2 h f p w)
    else if w = 1 ∧ F.strong ≠ 1 then goto t (.mmC h f p)
    else goto t (.mv0 h f p)
  -- `compare_exchange_weak(_, _, Release, Relaxed)` (urc.rs 357; arc.rs 73-95); the new `Weak` is dropped at
  -- once (urc.rs 358-363), and as the fence has no other one, that is `dec_weak` (urc.rs 543)
  | .mm2 h f p w => do
    if dbg = true ∧ w = mx then M.boom
    else do
      match ← cas ch true t .weak p w (incr mx w) false true with
      | some v => goto t (.mm2 h f p v)
      | none =>
        decWeak dbg mx f
        goto t (.mv0 h f p)
  -- `ptr::read` (urc.rs 312)
  | .mv0 h f p => do
    touch t p .write
    let v ← data p
    put p v false
    goto t (.mv1 h f p v)
  -- `store(0, Release)`, then `new`, and the assignment drops the old handle (urc.rs 315-319); the handle has
  -- another name then. If memory is refused the copy of the value is forgotten.
  | .mv1 h f p x => do
    let F ← fence f
    putFence f { F with strong := 0 }
    store t .strong p 0 true
    if ch.grant then do
      let (g, q) ← alloc t x
      let h' ← name
      give t (.urc g)
      setHand h none
      let _ ← dropUrc dbg mx t f
      goto t (.held h' g q)
    else do
      put p x true
      M.boom
  -- `T::clone` (urc.rs 304)
  | .mmC h f p => do
    touch t p .read
    let v ← data p
    if ch.boom then M.boom else goto t (.mmA h f p v)
  -- `new`, and the assignment drops the old handle (urc.rs 304, 496-524)
  | .mmA h f _ x => do
    if ch.grant then do
      let (g, q) ← alloc t x
      let h' ← name
      give t (.urc g)
      setHand h none
      match ← dropUrc dbg mx t f with
      | some p => goto t (.fin p (some (h', g, q)))
      | none => goto t (.held h' g q)
    else M.boom

end UrcT

/-! ## Runs -/

/-- What can happen. -/
inductive UrcAct (α : Type)
  /-- `Urc::new`; where memory is refused no handle comes to be -/
  | new (t : Nat) (x : α)
  /-- `recv` (scope.rs 216-220): thread `t` opens the envelope `h` -/
  | recv (t h : Nat)
  /-- thread `t` begins a call on its handle `h` -/
  | call (t h : Nat) (cmd : UrcCall α) (ch : UrcChoice α)
  /-- thread `t` goes on -/
  | run (t : Nat) (ch : UrcChoice α)

namespace UrcAct
variable (dbg : Bool) (mx : Nat)

/-- Which calls a handle has. -/
def has : UrcCall α → UrcHand → Bool
  | _, .urc _ => true
  | .drop, _ => true
  | .strongCount, .fence _ | .weakCount, .fence _ => true
  | _, _ => false

/-- It can happen: the thread is idle and has the handle, or it is busy. `sync`: `T` is `Sync`, so that nothing can
be written through `&T` (or only in a way that makes no data race). -/
def enabled (sync : Bool) (s : UrcSys α) : UrcAct α → Bool
  | .new t _ => match s.threads[t]? with
    | some none => true
    | _ => false
  | .recv t h => match s.threads[t]?, s.hands[h]? with
    | some none, some (some (.env _)) => true
    | _, _ => false
  | .call t h cmd _ => match s.threads[t]?, s.hands[h]? with
    | some none, some (some (.own t' k)) => t' == t && has cmd k &&
      (match cmd with
        | .poke _ => !sync
        | _ => true)
    | _, _ => false
  | .run t _ => match s.threads[t]? with
    | some (some _) => true
    | _ => false

/-- The faults of `try_unwrap` and `make_mut` (C71, C72): `try_unwrap` finds one fence, but the handle has a clone, or
no `Weak`; `make_mut` moves the value out although the handle has a clone, or is refused memory for it then. -/
def faulty (s : UrcSys α) : UrcAct α → Bool
  | .call _ h .tryUnwrap _ => match s.hands[h]? with
    | some (some (.own _ (.urc f))) => match s.fences[f]? with
      | some (some F) => (s.mem.msgs .strong F.master).getLast?.any (·.val == 1) &&
        (F.strong != 1 || F.weak == 0)
      | _ => false
    | _ => false
  | .run t ch => match s.threads[t]? with
    | some (some (.mv0 _ f _)) => match s.fences[f]? with
      | some (some F) => F.strong != 1
      | _ => false
    | some (some (.mv1 _ _ _ _)) => !ch.grant
    | _ => false
  | _ => false

/-- What happens. -/
def act : UrcAct α → M (UrcSys α) Unit
  | .new t x => do
    let (g, _) ← UrcT.alloc t x
    UrcT.give t (.urc g)
  | .recv t h => fun s => match s.hands[h]? with
    | some (some (.env f)) => .ok () { s with
        hands := s.hands.set h (some (.own t (.urc f)))
        mem := s.mem.learn t (s.mem.hnd h) }
    | _ => .ok () s
  | .call t h cmd ch => fun s => match s.hands[h]? with
    | some (some (.own _ k)) => UrcT.caught t (UrcT.call dbg mx ch t h cmd k) s
    | _ => .ok () s
  | .run t ch => fun s => match s.threads[t]? with
    | some (some op) => UrcT.caught t (UrcT.step dbg mx ch t op) s
    | _ => .ok () s

/-- A number of actions, each of them enabled; without faults if `calm`. -/
def acts (calm sync : Bool) : List (UrcAct α) → UrcSys α → Option (UrcSys α)
  | [], s => some s
  | a :: l, s =>
    if enabled sync s a && !(calm && faulty s a) then
      match act dbg mx a s with
      | .ok _ s' => acts calm sync l s'
      | _ => none
    else none

end UrcAct

/-- The states that any number of idle threads can reach in `n` steps, each of them allowed; without the faults of
`try_unwrap` and `make_mut` if `calm`. `dbg`: debug build. `mx`: `usize::MAX`. -/
inductive UrcTReaches (dbg : Bool) (mx : Nat) (calm sync : Bool) : Nat → UrcSys α → Prop
  | start (k : Nat) : UrcTReaches dbg mx calm sync 0 (.start k)
  | step {n : Nat} {s s' : UrcSys α} (a : UrcAct α) : UrcTReaches dbg mx calm sync n s →
      a.enabled sync s = true → (calm = true → a.faulty s = false) → a.act dbg mx s = .ok () s' →
      UrcTReaches dbg mx calm sync (n + 1) s'

end Lokky
