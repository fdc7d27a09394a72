import Verif.Model.Arc
import Mathlib.Data.List.Basic

/-!
# `Arc`s inside the values of other `Arc`s (/repo/src/arc.rs)

The value of an object holds handles of further objects; when the value is dropped, these are dropped one by one.
Every step of a thread is one atomic operation, as in `Verif.Model.Arc`, and steps of threads interleave in any order.

Simplifications. A value is the list of the handles it holds; they can be put in and taken out through a shared
reference, in one step (as with a mutex in the value). Handles of the same object are not told apart. `make_mut`, `get_mut`
and the loop of `downgrade` are left out (C58-C66). Panics end the thread's current calls completely: no destructor
catches them. The stack has no end.
-/

namespace Lokky

/-- `ArcInner` (arc.rs 17-23): the counts, the handles in the value, whether the value is there, how often
it was dropped or moved out, and whether the memory was released. -/
structure GObj where
  strong : Nat
  weak : Nat
  refs : List Nat
  alive : Bool
  outs : Nat
  freed : Bool
deriving DecidableEq, Repr

/-- What a thread has still to do. -/
inductive GOp
  /-- `drop` of a handle: about to `fetch_sub` (arc.rs 505) -/
  | sub (p : Nat)
  /-- `drop_slow`: the destructor of the value is running (arc.rs 352) -/
  | fin (p : Nat)
  /-- the destructor of the value was left by a panic; what the value holds is still to be dropped (arc.rs 352) -/
  | glue (p : Nat)
  /-- `drop_slow`, `try_unwrap`: about to load `weak` (arc.rs 355, 240) -/
  | look (p : Nat)
  /-- `drop_slow`, `try_unwrap`: about to release the memory (arc.rs 356, 241) -/
  | free (p : Nat)
  /-- `try_unwrap`: `strong` was set to zero, about to move the value out (arc.rs 237) -/
  | unw (p : Nat)
deriving DecidableEq, Repr

/-- A thread: what it has to do, first things first, and whether a panic unwinds its stack. -/
structure GThread where
  ops : List GOp
  unwinding : Bool
deriving DecidableEq, Repr

/-- The whole system: objects by address, the handles that the program has in its hands (by object, in any order), those
that were forgotten, and the threads. -/
structure GSys where
  objs : List GObj
  hands : List Nat
  lost : List Nat
  threads : List GThread
deriving DecidableEq, Repr

/-- `n` threads that have done nothing yet. -/
def GSys.start (n : Nat) : GSys := ⟨[], [], [], List.replicate n ⟨[], false⟩⟩

/-- The thread runs code of the program: it is inside no call of the crate, or in a destructor that
the crate has called (arc.rs 352). -/
def GThread.client (th : GThread) : Bool :=
  match th.ops with
  | [] | .fin _ :: _ => true
  | _ => false

/-- Thread `th` can use the value of object `p`: there is a handle (arc.rs 377-384), or the thread runs its destructor
(arc.rs 352). -/
def GSys.access (s : GSys) (th : GThread) (p : Nat) : Prop :=
  p ∈ s.hands ∨ th.ops.head? = some (.fin p)

/-- The handles that the value of object `p` holds. -/
def GSys.refs (s : GSys) (p : Nat) : List Nat := (s.objs[p]?.map GObj.refs).getD []

/-- Calls, and what else a program can do with handles. -/
inductive GCmd
  /-- `Arc::new` of a value that holds the handles `hs` (arc.rs 135-150) -/
  | new (hs : List Nat)
  /-- `clone` of a handle of `p` (arc.rs 466-497) -/
  | clone (p : Nat)
  /-- `clone` of a handle of `q` that is in the value of `p` -/
  | cloneIn (p q : Nat)
  /-- putting a handle of `q` into the value of `p` -/
  | store (p q : Nat)
  /-- taking a handle of `q` out of the value of `p` -/
  | take (p q : Nat)
  /-- `downgrade` (arc.rs 259-267); what becomes of the `Weak` does not matter (arc.rs 33-36) -/
  | downgrade (p : Nat)
  /-- `drop` (arc.rs 499-541) -/
  | drop (p : Nat)
  /-- `try_unwrap` (arc.rs 224-249) -/
  | unwrap (p : Nat)
  /-- `mem::forget` -/
  | forget (p : Nat)
deriving DecidableEq, Repr

namespace Graph

/-- Access to the memory of an object. -/
def obj (p : Nat) : M GSys GObj := fun s =>
  match s.objs[p]? with
  | some o => if o.freed then .ub .oob else .ok o s
  | none => .ub .oob

/-- Access to the value of an object. -/
def data (p : Nat) : M GSys GObj := do
  let o ← obj p
  if o.alive then pure o else M.undef .uninit

/-- Storing. -/
def put (p : Nat) (o : GObj) : M GSys Unit :=
  M.modify fun s => { s with objs := s.objs.set p o }

/-- What thread `t` has to do now. A thread that has nothing more to do has caught its panic. -/
def go (t : Nat) (ops : List GOp) (u : Bool) : M GSys Unit :=
  M.modify fun s => { s with threads := s.threads.set t ⟨ops, u && !ops.isEmpty⟩ }

/-- A new handle. `fetch_add(1)` wraps around; above `isize::MAX` it panics without a handle (arc.rs 480-496). -/
def grow (mx p : Nat) : M GSys Unit := do
  let o ← obj p
  put p { o with strong := Arc.incr mx o.strong }
  if o.strong > mx then pure ()
  else M.modify fun s => { s with hands := s.hands ++ [p] }

/-- A panic goes through the calls of a thread: `drop_slow` is left where it is, but what values hold is dropped. No thread is
about to release memory or to move a value out when code of the program panics. -/
def unwound : List GOp → List GOp
  | [] => []
  | .fin p :: r => .glue p :: unwound r
  | .look _ :: r => unwound r
  | op :: r => op :: unwound r

/-- One step of thread `t`, whose first thing to do is `op`, followed by `r`; `u`: it is unwinding; `boom`: the destructor panics,
which aborts the process if the thread is unwinding. -/
def step (mx : Nat) (t : Nat) (r : List GOp) (u boom : Bool) : GOp → M GSys Unit
  -- `drop` (arc.rs 499-541)
  | .sub p => do
    let o ← obj p
    put p { o with strong := Arc.decr mx o.strong }
    go t (if o.strong = 1 then .fin p :: r else r) u
  -- `drop_slow`: the value's destructor ends, and what it holds is dropped (arc.rs 352)
  | .fin p => do
    let o ← data p
    if boom then
      if u then fun _ => .abort
      else do
        put p { o with alive := false, outs := o.outs + 1 }
        go t (o.refs.map .sub ++ unwound r) true
    else do
      put p { o with alive := false, outs := o.outs + 1 }
      go t (o.refs.map .sub ++ .look p :: r) u
  | .glue p => do
    let o ← data p
    put p { o with alive := false, outs := o.outs + 1 }
    go t (o.refs.map .sub ++ r) u
  -- `drop_slow` (arc.rs 354-357), `try_unwrap` (arc.rs 239-242)
  | .look p => do
    let o ← obj p
    go t (if o.weak = 0 then .free p :: r else r) u
  | .free p => do
    let o ← obj p
    put p { o with freed := true }
    go t r u
  -- `try_unwrap`: the value is moved out; its handles are the program's now (arc.rs 235-237, 247)
  | .unw p => do
    let o ← data p
    put p { o with alive := false, outs := o.outs + 1 }
    M.modify fun s => { s with hands := s.hands ++ o.refs }
    go t (.look p :: r) u

/-- The beginning of a call in thread `t`, which has `ops` to do, unwinding if `u`. `grant`: the allocator
has memory. -/
def call (mx : Nat) (t : Nat) (ops : List GOp) (u grant : Bool) : GCmd → M GSys Unit
  -- `Arc::new`; where memory is refused the value is not dropped, as it is in a `MaybeDropped` (arc.rs 140-149; ptr.rs 181-185)
  | .new hs =>
    if grant then
      M.modify fun s => { s with
        objs := s.objs ++ [⟨1, 0, hs, true, 0, false⟩]
        hands := s.hands.diff hs ++ [s.objs.length] }
    else M.modify fun s => { s with hands := s.hands.diff hs, lost := s.lost ++ hs }
  | .clone p => grow mx p
  | .cloneIn p q => do
    let _ ← data p
    grow mx q
  | .store p q => do
    let o ← data p
    put p { o with refs := o.refs ++ [q] }
    M.modify fun s => { s with hands := s.hands.erase q }
  | .take p q => do
    let o ← data p
    put p { o with refs := o.refs.erase q }
    M.modify fun s => { s with hands := s.hands ++ [q] }
  | .downgrade p => do
    let o ← obj p
    put p { o with weak := o.weak + 1 }
  | .drop p => do
    M.modify fun s => { s with hands := s.hands.erase p }
    go t (.sub p :: ops) u
  -- `try_unwrap`: `compare_exchange` (arc.rs 225-233)
  | .unwrap p => do
    let o ← obj p
    if o.strong = 1 then do
      put p { o with strong := 0 }
      M.modify fun s => { s with hands := s.hands.erase p }
      go t (.unw p :: ops) u
    else pure ()
  | .forget p =>
    M.modify fun s => { s with hands := s.hands.erase p, lost := s.lost ++ [p] }

end Graph

/-- What the compiler makes sure of: a program uses handles that it has, and values that it can get at. -/
def GCmd.legal (s : GSys) (th : GThread) : GCmd → Prop
  | .new hs => ∀ q ∈ hs, hs.count q ≤ s.hands.count q
  | .clone p => p ∈ s.hands
  | .cloneIn p q => s.access th p ∧ q ∈ s.refs p
  | .store p q => s.access th p ∧ q ∈ s.hands
  | .take p q => s.access th p ∧ q ∈ s.refs p
  | .downgrade p => p ∈ s.hands
  | .drop p => p ∈ s.hands
  | .unwrap p => p ∈ s.hands
  | .forget p => p ∈ s.hands

/-- `store`. -/
def GCmd.stores : GCmd → Bool
  | .store _ _ => true
  | _ => false

/-- What can happen: a thread begins a call, or makes a step. Where `calm`, memory is never refused and
destructors do not panic; where `fixed`, no handle is put into a value after the value was made. -/
inductive GStep (mx : Nat) (calm fixed : Prop) : GSys → GSys → Prop
  | call (t : Nat) (grant : Bool) (cmd : GCmd) {s s' : GSys} {th : GThread} :
      s.threads[t]? = some th → th.client = true → cmd.legal s th →
      Graph.call mx t th.ops th.unwinding grant cmd s = .ok () s' →
      (calm → grant = true) → (fixed → cmd.stores = false) → GStep mx calm fixed s s'
  | run (t : Nat) (boom : Bool) {s s' : GSys} {op : GOp} {r : List GOp} {u : Bool} :
      s.threads[t]? = some ⟨op :: r, u⟩ → Graph.step mx t r u boom op s = .ok () s' →
      (calm → boom = false) → GStep mx calm fixed s s'

/-- The states that any number of idle threads can reach in `n` steps. -/
inductive GReaches (mx : Nat) (calm fixed : Prop) : Nat → GSys → Prop
  | start (k : Nat) : GReaches mx calm fixed 0 (GSys.start k)
  | step {n : Nat} {s s' : GSys} : GReaches mx calm fixed n s → GStep mx calm fixed s s' →
      GReaches mx calm fixed (n + 1) s'

/-- Steps of threads that begin no calls. -/
inductive GRuns (mx : Nat) : GSys → Nat → GSys → Prop
  | refl (s : GSys) : GRuns mx s 0 s
  | step {n : Nat} {s s' s'' : GSys} (t : Nat) (boom : Bool) {op : GOp} {r : List GOp} {u : Bool} :
      s.threads[t]? = some ⟨op :: r, u⟩ → Graph.step mx t r u boom op s = .ok () s' →
      GRuns mx s' n s'' → GRuns mx s (n + 1) s''

/-- No thread is inside a call. -/
def GSys.idle (s : GSys) : Prop := ∀ th ∈ s.threads, th.ops = []

/-- The program can get at object `p`: it has a handle of it, or can get at a value that holds one. `hs`: the handles
to begin with. -/
inductive GSys.Leads (s : GSys) (hs : List Nat) : Nat → Prop
  | hand {p : Nat} : p ∈ hs → s.Leads hs p
  | ref {p q : Nat} : s.Leads hs p → q ∈ s.refs p → s.Leads hs q

/-- Values hold handles of each other, but not in a circle: there is an order such that they hold only handles of smaller ones. -/
def GSys.Acyclic (s : GSys) : Prop :=
  ∃ rank : Nat → Nat, ∀ p o, s.objs[p]? = some o → o.alive = true → ∀ q ∈ s.refs p, rank q < rank p

end Lokky
