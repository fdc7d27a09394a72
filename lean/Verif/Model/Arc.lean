import Verif.Model.Mem

/-!
# `Arc<T>` (/repo/src/arc.rs) as a system of threads

Every step of a thread is one atomic operation (or one access to the value, or one call of the
allocator); steps of different threads interleave in any order. Memory is sequentially consistent.
A `compare_exchange_weak` may fail without reason.

Handles (`Arc`s) are named by their position in a list. `clone`, `downgrade`, reading and counting
borrow a handle, any number of threads at a time. `get_mut`, `make_mut`, `drop` and `try_unwrap` need it
exclusively: the handle is taken out of the list, and given back under a new name at the end.
`T::clone` returns an equal value or panics. Destructors of `T` do not panic.
`arc::Weak` has no functions and no destructor: all a client can do is to let go of it.
`downcast` is in Verif/Model/Downcast.lean; safe code cannot make an `Arc<dyn Any>`.
-/

namespace Lokky
variable {α : Type}

/-- `ArcInner` (arc.rs 17-23) with what happened to it: whether the value is there (not dropped or
moved out), how often it was dropped or moved out, how often by `try_unwrap`, whether the memory was released,
how many `Weak` handles there are, how many were ever made by `downgrade`, and whether `make_mut` was ever
refused memory after it had set `strong` to zero. -/
structure ArcObj (α : Type) where
  strong : Nat
  weak : Nat
  val : α
  alive : Bool
  outs : Nat
  won : Nat
  freed : Bool
  wk : Nat
  made : Nat
  lost : Bool
deriving DecidableEq, Repr

/-- What a thread is doing. First the calls that borrow handle `h` of object `p`; then those that own
it. `v` is the value at the beginning of `make_mut`, `k` the new object and `v` when `make_mut` drops the
old handle, `z` whether `make_mut` has set the count to zero. -/
inductive ArcOp (α : Type)
  /-- `clone`: about to `fetch_add` (arc.rs 480) -/
  | clone (h p : Nat)
  /-- `downgrade`: about to load `weak` (arc.rs 260) -/
  | down (h p : Nat)
  /-- `downgrade`: `v` was loaded (arc.rs 261-266) -/
  | down1 (h p v : Nat)
  /-- reading the value (arc.rs 377-396) -/
  | read (h p : Nat)
  /-- `strong_count` (arc.rs 278-280) -/
  | count (h p : Nat)
  /-- `weak_count` (arc.rs 270-275) -/
  | wcount (h p : Nat)
  /-- `is_unique`: about to lock `weak` (arc.rs 321-326) -/
  | get0 (p : Nat)
  /-- `is_unique`: about to load `strong` (arc.rs 330) -/
  | get1 (p : Nat)
  /-- `is_unique`: about to unlock (arc.rs 335) -/
  | get2 (p : Nat) (u : Bool)
  /-- the client has a `&mut T` from `get_mut` or `make_mut` (arc.rs 296-307, 219) -/
  | held (p : Nat)
  /-- `drop`: about to `fetch_sub` (arc.rs 505) -/
  | drop0 (p : Nat)
  /-- `drop_slow`: about to drop the value (arc.rs 352) -/
  | fin1 (p : Nat) (k : Option (Nat × α))
  /-- `drop_slow`: about to load `weak` (arc.rs 355) -/
  | fin2 (p : Nat) (k : Option (Nat × α))
  /-- `drop_slow`: about to release the memory (arc.rs 356) -/
  | fin3 (p : Nat) (k : Option (Nat × α))
  /-- `try_unwrap`: about to `compare_exchange` (arc.rs 225-229) -/
  | unw0 (p : Nat)
  /-- `try_unwrap`: about to move the value out (arc.rs 237) -/
  | unw1 (p : Nat)
  /-- `try_unwrap`: about to load `weak` (arc.rs 240) -/
  | unw2 (p : Nat) (x : α)
  /-- `try_unwrap`: about to release the memory (arc.rs 241) -/
  | unw3 (p : Nat) (x : α)
  /-- `make_mut`: about to load `strong` (arc.rs 176) -/
  | mm0 (p : Nat) (v : α)
  /-- `make_mut`: about to load `weak` (arc.rs 177) -/
  | mm1 (p : Nat) (v : α) (s : Nat)
  /-- `make_mut`: incrementing `weak`, which was `w` (arc.rs 193, 73-95) -/
  | mm2 (p : Nat) (v : α) (w : Nat)
  /-- `make_mut`: about to set `strong`, which was 1, to zero (arc.rs 197, 104-109) -/
  | mm3 (p : Nat) (v : α)
  /-- `make_mut`: about to move the value out (arc.rs 200) -/
  | mm4 (p : Nat) (v : α)
  /-- `make_mut`: about to clone the value (arc.rs 208, 215) -/
  | mmC (p : Nat) (v : α)
  /-- `make_mut`: about to allocate an object for `x` (arc.rs 202, 209, 216) -/
  | mmA (p : Nat) (v x : α) (z : Bool)
  /-- `make_mut`: about to drop the old handle for the new one, of object `q` (arc.rs 202, 209, 216) -/
  | mm5 (p : Nat) (v : α) (q : Nat) (z : Bool)
deriving DecidableEq, Repr

/-- Results of calls. -/
inductive ArcOut (α : Type)
  | unit
  | val (a : α)
  | nat (n : Nat)
  /-- `get_mut` gave `None` -/
  | no
  /-- `try_unwrap` failed -/
  | err
  | panic
deriving DecidableEq, Repr

/-- The whole system: objects by address, handles, what each thread does (`none`: nothing), and the
results of completed calls, latest first. -/
structure ArcSys (α : Type) where
  objs : List (ArcObj α)
  hands : List (Option Nat)
  threads : List (Option (ArcOp α))
  log : List (Nat × ArcOut α)
deriving DecidableEq, Repr

/-- `n` threads that have done nothing yet. -/
def ArcSys.start (n : Nat) : ArcSys α := ⟨[], [], List.replicate n none, []⟩

/-- What is not determined by the program: spurious failures of `compare_exchange_weak`, the answer of
the allocator, whether `T::clone` panics, and what the client writes through a `&mut T` (`none`: it
lets go of it). -/
structure ArcChoice (α : Type) where
  fail : Bool := false
  grant : Bool := true
  boom : Bool := false
  write : Option α := none

namespace Arc
variable (mx : Nat)

/-- `usize::MAX`, which is the lock (arc.rs 18-19). `mx` is `isize::MAX`. -/
def lock : Nat := 2 * mx + 1

/-- Access to the memory of an object. -/
def obj (p : Nat) : M (ArcSys α) (ArcObj α) := fun s =>
  match s.objs[p]? with
  | some o => if o.freed then .ub .oob else .ok o s
  | none => .ub .oob

/-- Access to the value of an object. -/
def data (p : Nat) : M (ArcSys α) α := do
  let o ← obj p
  if o.alive then pure o.val else M.undef .uninit

/-- Storing. -/
def put (p : Nat) (o : ArcObj α) : M (ArcSys α) Unit :=
  M.modify fun s => { s with objs := s.objs.set p o }

/-- The thread goes on with `op`. -/
def goto (t : Nat) (op : ArcOp α) : M (ArcSys α) Unit :=
  M.modify fun s => { s with threads := s.threads.set t (some op) }

/-- The call is over. -/
def done (t : Nat) (out : ArcOut α) : M (ArcSys α) Unit :=
  M.modify fun s => { s with threads := s.threads.set t none, log := (t, out) :: s.log }

/-- The client gets a handle. -/
def give (p : Nat) : M (ArcSys α) Unit :=
  M.modify fun s => { s with hands := s.hands ++ [some p] }

/-- `make_mut` cannot put the copy it has taken of the value anywhere (`z`). The copy is forgotten with the
panic, because `MaybeDropped` does not drop it (arc.rs 200-202, 139-150; ptr.rs 181-185), so that the value
counts as being in its place again; the count of handles stays zero. -/
def lose (p : Nat) (z : Bool) : M (ArcSys α) Unit :=
  M.modify fun s =>
    if z then
      { s with objs := s.objs.modify p fun o =>
          { o with alive := true, outs := o.outs - 1, lost := true } }
    else s

/-- `fetch_add(1)` / `fetch_sub(1)` wrap around. -/
def incr (n : Nat) : Nat := if n = lock mx then 0 else n + 1
def decr (n : Nat) : Nat := if n = 0 then lock mx else n - 1

/-- After `drop_slow`, or when `drop` has nothing more to do: `make_mut` goes on with the new object,
a plain `drop` is over. -/
def after (t : Nat) (k : Option (Nat × α)) : M (ArcSys α) Unit :=
  match k with
  | some (q, _) => goto t (.held q)
  | none => done t .unit

/-- One step of thread `t`, which is doing `op`. -/
def step (ch : ArcChoice α) (t : Nat) : ArcOp α → M (ArcSys α) Unit
  -- `clone` (arc.rs 466-497)
  | .clone _ p => do
    let o ← obj p
    put p { o with strong := incr mx o.strong }
    if o.strong > mx then done t .panic
    else do
      give p
      done t .unit
  -- `downgrade` (arc.rs 259-267); `sync_lock` (arc.rs 64-71), `try_increment` (arc.rs 86-95)
  | .down h p => do
    let o ← obj p
    goto t (.down1 h p o.weak)
  | .down1 h p v => do
    let o ← obj p
    if v = lock mx then goto t (.down1 h p o.weak)
    else if o.weak = v ∧ ch.fail = false then do
      put p { o with weak := v + 1, wk := o.wk + 1, made := o.made + 1 }
      done t .unit
    else pure ()
  -- `deref` (arc.rs 377-384)
  | .read _ p => do
    let v ← data p
    done t (.val v)
  -- `strong_count` (arc.rs 278-280)
  | .count _ p => do
    let o ← obj p
    done t (.nat o.strong)
  -- `weak_count` (arc.rs 270-275)
  | .wcount _ p => do
    let o ← obj p
    done t (.nat (if o.weak = lock mx then 0 else o.weak))
  -- `get_mut` (arc.rs 296-307) with `is_unique` (arc.rs 313-340)
  | .get0 p => do
    let o ← obj p
    if o.weak = 0 then do
      put p { o with weak := lock mx }
      goto t (.get1 p)
    else do
      give p
      done t .no
  | .get1 p => do
    let o ← obj p
    goto t (.get2 p (o.strong == 1))
  | .get2 p u => do
    let o ← obj p
    put p { o with weak := 0 }
    if u then goto t (.held p)
    else do
      give p
      done t .no
  -- the client writes through the reference, or lets go of it
  | .held p => do
    let o ← obj p
    let _ ← data p
    match ch.write with
    | some x => put p { o with val := x }
    | none => do
      give p
      done t .unit
  -- `drop` (arc.rs 499-541) and `drop_slow` (arc.rs 349-358)
  | .drop0 p => do
    let o ← obj p
    put p { o with strong := decr mx o.strong }
    if o.strong = 1 then goto t (.fin1 p none) else done t .unit
  | .fin1 p k => do
    let o ← obj p
    let _ ← data p
    put p { o with alive := false, outs := o.outs + 1 }
    goto t (.fin2 p k)
  | .fin2 p k => do
    let o ← obj p
    if o.weak = 0 then goto t (.fin3 p k) else after t k
  | .fin3 p k => do
    let o ← obj p
    put p { o with freed := true }
    after t k
  -- `try_unwrap` (arc.rs 224-249)
  | .unw0 p => do
    let o ← obj p
    if o.strong = 1 then do
      put p { o with strong := 0 }
      goto t (.unw1 p)
    else do
      give p
      done t .err
  | .unw1 p => do
    let o ← obj p
    let x ← data p
    put p { o with alive := false, outs := o.outs + 1, won := o.won + 1 }
    goto t (.unw2 p x)
  | .unw2 p x => do
    let o ← obj p
    if o.weak = 0 then goto t (.unw3 p x) else done t (.val x)
  | .unw3 p x => do
    let o ← obj p
    put p { o with freed := true }
    done t (.val x)
  -- `make_mut` (arc.rs 172-220)
  | .mm0 p v => do
    let o ← obj p
    goto t (.mm1 p v o.strong)
  | .mm1 p v s => do
    let o ← obj p
    if s = 1 then
      if o.weak = 0 then goto t (.held p) else goto t (.mm2 p v o.weak)
    else goto t (.mmC p v)
  | .mm2 p v w => do
    let o ← obj p
    if o.weak = w ∧ ch.fail = false then do
      put p { o with weak := incr mx w }
      goto t (.mm3 p v)
    else goto t (.mm2 p v o.weak)
  | .mm3 p v => do
    let o ← obj p
    if o.strong = 1 ∧ ch.fail = false then do
      put p { o with strong := 0 }
      goto t (.mm4 p v)
    else goto t (.mmC p v)
  | .mm4 p v => do
    let o ← obj p
    let x ← data p
    put p { o with alive := false, outs := o.outs + 1 }
    goto t (.mmA p v x true)
  | .mmC p v => do
    let x ← data p
    if ch.boom then do
      give p
      done t .panic
    else goto t (.mmA p v x false)
  -- `Arc::new` (arc.rs 135-150; ptr.rs 181-199); if memory is refused, the value is not dropped
  | .mmA p v x z => do
    if ch.grant then do
      let s ← M.get
      M.modify fun s => { s with objs := s.objs ++ [⟨1, 0, x, true, 0, 0, false, 0, 0, false⟩] }
      goto t (.mm5 p v s.objs.length z)
    else do
      lose p z
      give p
      done t .panic
  -- the assignment drops the old handle (arc.rs 499-541)
  | .mm5 p v q _ => do
    let o ← obj p
    put p { o with strong := decr mx o.strong }
    if o.strong = 1 then goto t (.fin1 p (some (q, v))) else goto t (.held q)

end Arc

/-- Calls a thread can begin. -/
inductive ArcCmd (α : Type)
  | new (x : α)
  | clone (h : Nat)
  | downgrade (h : Nat)
  | read (h : Nat)
  | count (h : Nat)
  | wcount (h : Nat)
  | getMut (h : Nat)
  | makeMut (h : Nat)
  | tryUnwrap (h : Nat)
  | drop (h : Nat)
  /-- letting go of a `Weak` of object `p`: nothing is run -/
  | dropWeak (p : Nat)

namespace ArcOp

/-- The handle a thread borrows. -/
def borrows (h : Nat) : ArcOp α → Bool
  | .clone h' _ | .down h' _ | .down1 h' _ _ | .read h' _ | .count h' _ | .wcount h' _ => h' == h
  | _ => false

end ArcOp

/-- No thread borrows handle `h`. -/
def ArcSys.Unborrowed (s : ArcSys α) (h : Nat) : Prop :=
  ∀ (t : Nat) (op : ArcOp α), s.threads[t]? = some (some op) → op.borrows h = false

/-- Beginning a call: what the thread does then, for calls that borrow handle `h` of object `p`. -/
def ArcCmd.borrows : ArcCmd α → Option (Nat × (Nat → ArcOp α))
  | .clone h => some (h, .clone h)
  | .downgrade h => some (h, .down h)
  | .read h => some (h, .read h)
  | .count h => some (h, .count h)
  | .wcount h => some (h, .wcount h)
  | _ => none

/-- … and for calls that take handle `h` of object `p`, with value `v`. -/
def ArcCmd.takes : ArcCmd α → Option (Nat × (Nat → α → ArcOp α))
  | .getMut h => some (h, fun p _ => .get0 p)
  | .makeMut h => some (h, fun p v => .mm0 p v)
  | .tryUnwrap h => some (h, fun p _ => .unw0 p)
  | .drop h => some (h, fun p _ => .drop0 p)
  | _ => none

/-- `make_mut` has moved the value out, and is refused memory for it (arc.rs 200-202). -/
def ArcLoses (ch : ArcChoice α) : ArcOp α → Prop
  | .mmA _ _ _ z => z = true ∧ ch.grant = false
  | _ => False

/-- What can happen: a thread begins a call, or makes a step. Where `calm`, `make_mut` is not refused
memory after it has moved the value out. -/
inductive ArcStep (mx : Nat) (calm : Prop) : ArcSys α → ArcSys α → Prop
  /-- `Arc::new` (arc.rs 135-150); where memory is refused no handle comes to be -/
  | new (t : Nat) (x : α) {s : ArcSys α} : s.threads[t]? = some none →
      ArcStep mx calm s { s with
        objs := s.objs ++ [⟨1, 0, x, true, 0, 0, false, 0, 0, false⟩]
        hands := s.hands ++ [some s.objs.length] }
  | borrow (t : Nat) {s : ArcSys α} (cmd : ArcCmd α) {h p : Nat} {f : Nat → ArcOp α} :
      s.threads[t]? = some none → cmd.borrows = some (h, f) → s.hands[h]? = some (some p) →
      ArcStep mx calm s { s with threads := s.threads.set t (some (f p)) }
  | take (t : Nat) {s : ArcSys α} (cmd : ArcCmd α) {h p : Nat} {o : ArcObj α}
      {f : Nat → α → ArcOp α} :
      s.threads[t]? = some none → cmd.takes = some (h, f) → s.hands[h]? = some (some p) →
      s.objs[p]? = some o → s.Unborrowed h →
      ArcStep mx calm s { s with
        hands := s.hands.set h none
        threads := s.threads.set t (some (f p o.val)) }
  /-- letting go of a `Weak` runs nothing (arc.rs 33-36) -/
  | dropWeak (p : Nat) {s : ArcSys α} {o : ArcObj α} : s.objs[p]? = some o → 0 < o.wk →
      ArcStep mx calm s { s with objs := s.objs.set p { o with wk := o.wk - 1 } }
  | run (t : Nat) (ch : ArcChoice α) {s s' : ArcSys α} {op : ArcOp α} :
      s.threads[t]? = some (some op) → Arc.step mx ch t op s = .ok () s' →
      (calm → ¬ ArcLoses ch op) → ArcStep mx calm s s'

/-- `n` steps. -/
inductive ArcSteps (mx : Nat) (calm : Prop) (s : ArcSys α) : Nat → ArcSys α → Prop
  | refl : ArcSteps mx calm s 0 s
  | tail {n : Nat} {s' s'' : ArcSys α} : ArcSteps mx calm s n s' → ArcStep mx calm s' s'' →
      ArcSteps mx calm s (n + 1) s''

/-- The states that any number of idle threads can reach in `n` steps. -/
def ArcReaches (mx : Nat) (calm : Prop) (n : Nat) (s : ArcSys α) : Prop :=
  ∃ k, ArcSteps mx calm (ArcSys.start k) n s

end Lokky
