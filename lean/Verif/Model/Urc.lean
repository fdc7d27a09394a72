import Verif.Model.Mem

/-!
# `Urc<T>` (/repo/src/urc.rs)

A `Master` holds the value and counts fences; a `Fence` belongs to one thread and counts the handles of that
thread. Both live in a memory of their own, by address; an address is never used again. One call is made
at a time (a call of one thread does not interleave with that of another). `compare_exchange_weak` in
`AtomicCounter::increment` (arc.rs 73-95) is tried again if it fails, so that spurious failures make no
difference.
`Urc<dyn Any>` (and so `downcast`, urc.rs 421-438) cannot be made by safe code; see Verif/Model/Downcast.lean.
-/

namespace Lokky
variable {α : Type}

/-- `Master` (urc.rs 107-117), whether the value is there (not moved out), and how often `envelop` was called
for it. -/
structure UrcMaster (α : Type) where
  sf : Nat
  wf : Nat
  val : α
  alive : Bool
  sent : Nat
deriving DecidableEq, Repr

/-- `Fence` (urc.rs 38-42). -/
structure UrcFence where
  strong : Nat
  weak : Nat
  master : Nat
deriving DecidableEq, Repr

/-- Memory: masters and fences by address (`none`: released); allocator requests made; calls of
`T::clone`; values whose destructor was run by `Urc`. -/
structure UrcWorld (α : Type) where
  masters : List (Option (UrcMaster α))
  fences : List (Option UrcFence)
  tick : Nat
  calls : Nat
  dropped : List α
deriving DecidableEq, Repr

namespace Urc
variable (c : Cfg α)

/-- Access to a fence (urc.rs 135-137, 186-193, 441-444). -/
def fence (f : Nat) : M (UrcWorld α) UrcFence := fun w =>
  match w.fences[f]? with
  | some (some F) => .ok F w
  | _ => .ub .oob

/-- Access to a master (urc.rs 176-183, 447-449). -/
def master (m : Nat) : M (UrcWorld α) (UrcMaster α) := fun w =>
  match w.masters[m]? with
  | some (some x) => .ok x w
  | _ => .ub .oob

/-- Storing into a fence. -/
def putFence (f : Nat) (F : UrcFence) : M (UrcWorld α) Unit :=
  M.modify fun w => { w with fences := w.fences.set f (some F) }

/-- Storing into a master. -/
def putMaster (m : Nat) (x : UrcMaster α) : M (UrcWorld α) Unit :=
  M.modify fun w => { w with masters := w.masters.set m (some x) }

/-- Access to the value (urc.rs 462-467). -/
def data (m : Nat) : M (UrcWorld α) α := do
  let x ← master m
  if x.alive then pure x.val else M.undef .uninit

/-- `inc_weak` (urc.rs 68-71). -/
def incWeak (f : Nat) : M (UrcWorld α) Unit := do
  let F ← fence f
  let n ← uadd c F.weak 1
  putFence f { F with weak := n }

/-- `inc_strong` (urc.rs 74-77). -/
def incStrong (f : Nat) : M (UrcWorld α) Unit := do
  let F ← fence f
  let n ← uadd c F.strong 1
  putFence f { F with strong := n }

/-- `dec_weak` (urc.rs 80-84). -/
def decWeak (f : Nat) : M (UrcWorld α) Unit := do
  let F ← fence f
  debugAssert c (F.weak > 0)
  let n ← usub c F.weak 1
  putFence f { F with weak := n }

/-- `dec_strong` (urc.rs 87-91). -/
def decStrong (f : Nat) : M (UrcWorld α) Unit := do
  let F ← fence f
  debugAssert c (F.strong > 0)
  let n ← usub c F.strong 1
  putFence f { F with strong := n }

/-- `fetch_add(1)` and `fetch_sub(1)` wrap around. -/
def wrapAdd (n : Nat) : Nat := if n = c.usizeMax then 0 else n + 1
def wrapSub (n : Nat) : Nat := if n = 0 then c.usizeMax else n - 1

/-- `drop_in_place` on a `MaybeDropped<T>` (urc.rs 511; marker.rs 18-22): it wraps a `ManuallyDrop<T>` and
has no destructor, so nothing happens. -/
def dropData (_ : α) : M (UrcWorld α) Unit := pure ()

/-- `drop_in_place` on a `Master<T>` (urc.rs 515, 537): no field has a destructor, and the memory is not
given back. -/
def dropMaster (_ : Nat) : M (UrcWorld α) Unit := pure ()

/-- `drop_in_place` on a `Fence<T>` (urc.rs 531; 41): the same. -/
def dropFence (_ : Nat) : M (UrcWorld α) Unit := pure ()

/-- `ManuallyDrop::drop` on a `ScopePtr<Fence<T>>` (ptr.rs 33-41): gives the memory back. -/
def freeFence (f : Nat) : M (UrcWorld α) Unit := fun w =>
  match w.fences[f]? with
  | some (some _) => .ok () { w with fences := w.fences.set f none }
  | _ => .ub .badFree

/-- `ManuallyDrop::drop` on a `ScopePtr<Master<T>>`. -/
def freeMaster (m : Nat) : M (UrcWorld α) Unit := fun w =>
  match w.masters[m]? with
  | some (some _) => .ok () { w with masters := w.masters.set m none }
  | _ => .ub .badFree

/-- `ScopePtr::alloc` of a master (ptr.rs 181-199). On refusal it is dropped, which does not run the destructor
of the value. -/
def allocMaster (x : UrcMaster α) : M (UrcWorld α) (Option Nat) := fun w =>
  if c.grant w.tick c.size then
    .ok (some w.masters.length) { w with masters := w.masters ++ [some x], tick := w.tick + 1 }
  else .ok none { w with tick := w.tick + 1 }

/-- `ScopePtr::alloc` of a fence. On refusal it is dropped, which leaves the master as it is. -/
def allocFence (F : UrcFence) : M (UrcWorld α) (Option Nat) := fun w =>
  if c.grant w.tick c.size then
    .ok (some w.fences.length) { w with fences := w.fences ++ [some F], tick := w.tick + 1 }
  else .ok none { w with tick := w.tick + 1 }

/-- `new`, `try_new` (urc.rs 213-236). -/
def new (x : α) : M (UrcWorld α) Nat := do
  match ← allocMaster c ⟨1, 0, x, true, 0⟩ with
  | none => M.boom
  | some m =>
    match ← allocFence c ⟨1, 0, m⟩ with
    | none => M.boom
    | some f => pure f

/-- `clone` (urc.rs 485-493). -/
def clone (f : Nat) : M (UrcWorld α) Nat := do
  incStrong c f
  pure f

/-- `downgrade` (urc.rs 165-173): a `Weak` has the addresses of fence and master. -/
def downgrade (f : Nat) : M (UrcWorld α) (Nat × Nat) := do
  incWeak c f
  let F ← fence f
  pure (f, F.master)

/-- `drop` of a `Urc` (urc.rs 496-524). -/
def drop (f : Nat) : M (UrcWorld α) Unit := do
  let F ← fence f
  if F.strong = 1 ∧ F.weak = 0 then do
    freeFence f
    let x ← master F.master
    putMaster F.master { x with sf := wrapSub c x.sf }
    if x.sf = 1 then do
      dropData x.val
      let x ← master F.master
      if x.wf = 0 then dropMaster F.master else pure ()
    else pure ()
  else decStrong c f

/-- `drop` of a `Weak` (urc.rs 526-546). -/
def weakDrop (f m : Nat) : M (UrcWorld α) Unit := do
  let F ← fence f
  if F.weak = 1 ∧ F.strong = 0 then do
    dropFence f
    let x ← master m
    putMaster m { x with wf := wrapSub c x.wf }
    if x.wf = 1 then do
      let x ← master m
      if x.sf = 0 then dropMaster m else pure ()
    else pure ()
  else decWeak c f

/-- `envelop` (urc.rs 616-640): a fence for another thread; returns it. `recv` (scope.rs 216-220) hands over
the new `Urc` as it is. -/
def envelop (f : Nat) : M (UrcWorld α) Nat := do
  let F ← fence f
  let x ← master F.master
  putMaster F.master { x with sf := wrapAdd c x.sf, sent := x.sent + 1 }
  match ← allocFence c ⟨1, 0, F.master⟩ with
  | none => M.boom
  | some g => pure g

/-- `as_ref`, `deref`, `borrow` (urc.rs 462-482). Simplification: the code reads at the address kept in the handle,
this goes by way of the fence. They agree while the fence is there (`C67_kept_partial`, Props/PtrEq.lean). -/
def asRef (f : Nat) : M (UrcWorld α) α := do
  let F ← fence f
  data F.master

/-- Writing through the `&mut T` from `get_mut_unchecked` (urc.rs 375-378); returns the old value. -/
def write (f : Nat) (g : α → α) : M (UrcWorld α) α := do
  let F ← fence f
  let v ← data F.master
  let x ← master F.master
  putMaster F.master { x with val := g v }
  pure v

/-- `get_mut` (urc.rs 381-392) with `is_unique` (urc.rs 397-418): whether it gives access. -/
def getMut (f : Nat) : M (UrcWorld α) Bool := do
  let F ← fence f
  let x ← master F.master
  if x.wf = 0 then do
    putMaster F.master { x with wf := c.usizeMax }
    let x ← master F.master
    if x.sf = 1 then do
      putMaster F.master { x with wf := 0 }
      pure (F.strong == 1 && F.weak == 0)
    else pure false
  else pure false

/-- `is_sole_strong_fence` (urc.rs 150-153). -/
def isSole (f : Nat) : M (UrcWorld α) Bool := do
  let F ← fence f
  let x ← master F.master
  pure (x.sf == 1)

/-- The fence has no handles left after the value was moved out (urc.rs 279-288). The pointer to the master lies
in the fence (urc.rs 281-282), and is used after the fence was given back. -/
def releaseBoth (f : Nat) : M (UrcWorld α) Unit := do
  freeFence f
  let F ← fence f
  let x ← master F.master
  if x.wf = 0 then freeMaster F.master else pure ()

/-- `try_unwrap` (urc.rs 258-295); `none` is `Err`, with the handle. -/
def tryUnwrap (f : Nat) : M (UrcWorld α) (Option α) := do
  let F ← fence f
  let x ← master F.master
  if x.sf = 1 then do
    putMaster F.master { x with sf := 0 }
    if F.strong ≠ 1 then pure none
    else do
      let v ← data F.master
      let x ← master F.master
      putMaster F.master { x with alive := false }
      let _ ← (if F.weak = 0 then releaseBoth f else pure () : M (UrcWorld α) Unit)
      pure (some v)
  else pure none

/-- `T::clone`. -/
def cloneVal (a : α) : M (UrcWorld α) α := fun w =>
  match c.clone w.calls a with
  | some b => .ok b { w with calls := w.calls + 1 }
  | none => .panic { w with calls := w.calls + 1 }

/-- Code that works on the memory, beside a handle (the address of its fence). -/
def lift {β : Type} (m : M (UrcWorld α) β) : M (Nat × UrcWorld α) β := fun s =>
  match m s.2 with
  | .ok a w => .ok a (s.1, w)
  | .panic w => .panic (s.1, w)
  | .abort => .abort
  | .ub u => .ub u

/-- `*this = q`: the old handle is dropped and the new one stored, also if that unwinds. -/
def replace (q : Nat) : M (Nat × UrcWorld α) Unit :=
  M.andAlways
    (do
      let s ← M.get
      lift (drop c s.1))
    (M.modify fun s => (q, s.2))

/-- `clone!()` in `make_mut` (urc.rs 302-307). -/
def cloneOut (m : Nat) : M (Nat × UrcWorld α) Unit := do
  let v ← lift (data m)
  let v' ← lift (cloneVal c v)
  let q ← lift (new c v')
  replace c q

/-- `move_out!()` in `make_mut` (urc.rs 310-321). If memory is refused, the copy of the value is forgotten
with the panic, because `MaybeDropped` does not drop it, so that the value counts as being in its place still. -/
def moveOut (f m : Nat) : M (Nat × UrcWorld α) Unit := do
  let v ← lift (data m)
  let F ← lift (fence f)
  lift (putFence f { F with strong := 0 })
  let x ← lift (master m)
  lift (putMaster m { x with sf := 0 })
  let q ← lift (new c v)
  let x ← lift (master m)
  lift (putMaster m { x with alive := false })
  replace c q

/-- `make_mut` (urc.rs 297-370). The state is the handle and the memory; afterwards the caller has access to
the value of the handle. `let _ = Weak { … }` (urc.rs 358-363) drops the new `Weak` at once. -/
def makeMut : M (Nat × UrcWorld α) Unit := do
  let s ← M.get
  let F ← lift (fence s.1)
  let x ← lift (master F.master)
  if x.sf = 1 then
    if F.weak ≠ 0 then
      if x.wf = 1 then
        if F.strong = 1 then moveOut c s.1 F.master else cloneOut c F.master
      else moveOut c s.1 F.master
    else do
      let n ← lift (uadd c x.wf 1)
      lift (putMaster F.master { x with wf := n })
      lift (weakDrop c s.1 F.master)
      moveOut c s.1 F.master
  else cloneOut c F.master

/-- `try_into_fence` (urc.rs 196-208): whether it gives the fence. -/
def intoFence (f : Nat) : M (UrcWorld α) Bool := do
  let F ← fence f
  pure (F.strong == 1 && F.weak == 0)

/-- `ScopePtr::into_inner` of a fence (ptr.rs 202-208), then `into_urc` (urc.rs 96-104). `into_inner` gives
the memory back, and then `self` is dropped. -/
def fromFence (f : Nat) : M (UrcWorld α) Nat := do
  let F ← fence f
  freeFence f
  freeFence f
  match ← allocFence c F with
  | none => M.boom
  | some g => pure g

end Urc

/-! ## Client programs -/

/-- A handle: a `Urc` of fence `f`; a `Weak` of fence `f` and master `m`; a fence taken out of a `Urc`. -/
inductive UrcHand
  | urc (f : Nat)
  | weak (f m : Nat)
  | fence (f : Nat)
deriving DecidableEq, Repr

/-- The handles of all threads (`none`: dropped or moved away), and the memory. -/
structure UrcPool (α : Type) where
  hands : List (Option UrcHand)
  w : UrcWorld α
deriving DecidableEq

/-- Nothing made yet. -/
def UrcPool.start : UrcPool α := ⟨[], ⟨[], [], 0, 0, []⟩⟩

/-- Calls. `h` names a handle. `setMut h x` writes `x` through `get_mut`, `makeMut h g` changes the value
by `g` through `make_mut`; both show the old value. `envelop` includes sending and `recv`. -/
inductive UrcCmd (α : Type)
  | new (x : α)
  | clone (h : Nat)
  | downgrade (h : Nat)
  | envelop (h : Nat)
  | drop (h : Nat)
  | read (h : Nat)
  | strongCount (h : Nat)
  | weakCount (h : Nat)
  | isSole (h : Nat)
  | setMut (h : Nat) (x : α)
  | makeMut (h : Nat) (g : α → α)
  | tryUnwrap (h : Nat)
  | intoFence (h : Nat)
  | fromFence (h : Nat)

/-- What calls return. -/
inductive UrcOut (α : Type)
  | unit
  | bool (b : Bool)
  | val (a : α)
  | opt (a : Option α)
  | nat (n : Nat)
deriving DecidableEq, Repr

namespace UrcPool
variable {β : Type}

/-- Run code on the memory; the handles become `H` if it returns and `H'` if it unwinds. -/
def on (m : M (UrcWorld α) β) (H : β → List (Option UrcHand)) (H' : List (Option UrcHand))
    (out : β → UrcOut α) : M (UrcPool α) (UrcOut α) := fun P =>
  match m P.w with
  | .ok a w => .ok (out a) ⟨H a, w⟩
  | .panic w => .panic ⟨H', w⟩
  | .abort => .abort
  | .ub u => .ub u

/-- Run code that only looks. -/
def look (m : M (UrcWorld α) β) (out : β → UrcOut α) : M (UrcPool α) (UrcOut α) := fun P =>
  on m (fun _ => P.hands) P.hands out P

/-- Run code that makes a handle. -/
def make (m : M (UrcWorld α) β) (hand : β → UrcHand) : M (UrcPool α) (UrcOut α) := fun P =>
  on m (fun a => P.hands ++ [some (hand a)]) P.hands (fun _ => .unit) P

/-- `make_mut` on handle `h`, then changing the value by `g`. -/
def makeMut (c : Cfg α) (h f : Nat) (g : α → α) : M (UrcPool α) (UrcOut α) := fun P =>
  match Urc.makeMut c (f, P.w) with
  | .ok _ (q, w) => on (Urc.write q g) (fun _ => P.hands.set h (some (.urc q)))
      (P.hands.set h (some (.urc q))) .val ⟨P.hands, w⟩
  | .panic (q, w) => .panic ⟨P.hands.set h (some (.urc q)), w⟩
  | .abort => .abort
  | .ub u => .ub u

end UrcPool

/-- Calls of a client program. A handle that is not there, or of the wrong kind, cannot be named by a
client (`Callable`); then nothing happens here. -/
def runUrc (c : Cfg α) (cmd : UrcCmd α) : M (UrcPool α) (UrcOut α) := fun P =>
  match cmd with
  | .new x => UrcPool.make (Urc.new c x) .urc P
  | .clone h => match P.hands[h]? with
    | some (some (.urc f)) => UrcPool.make (Urc.clone c f) .urc P
    | _ => .ok .unit P
  | .downgrade h => match P.hands[h]? with
    | some (some (.urc f)) => UrcPool.make (Urc.downgrade c f) (fun r => .weak r.1 r.2) P
    | _ => .ok .unit P
  | .envelop h => match P.hands[h]? with
    | some (some (.urc f)) => UrcPool.make (Urc.envelop c f) .urc P
    | _ => .ok .unit P
  | .drop h => match P.hands[h]? with
    | some (some (.urc f)) =>
      UrcPool.on (Urc.drop c f) (fun _ => P.hands.set h none) (P.hands.set h none) (fun _ => .unit) P
    | some (some (.weak f m)) =>
      UrcPool.on (Urc.weakDrop c f m) (fun _ => P.hands.set h none) (P.hands.set h none) (fun _ => .unit) P
    | some (some (.fence f)) =>
      UrcPool.on (Urc.freeFence f) (fun _ => P.hands.set h none) (P.hands.set h none) (fun _ => .unit) P
    | _ => .ok .unit P
  | .read h => match P.hands[h]? with
    | some (some (.urc f)) => UrcPool.look (Urc.asRef f) .val P
    | _ => .ok .unit P
  | .strongCount h => match P.hands[h]? with
    | some (some (.urc f)) => UrcPool.look (Urc.fence f) (fun F => .nat F.strong) P
    | some (some (.fence f)) => UrcPool.look (Urc.fence f) (fun F => .nat F.strong) P
    | _ => .ok .unit P
  | .weakCount h => match P.hands[h]? with
    | some (some (.urc f)) => UrcPool.look (Urc.fence f) (fun F => .nat F.weak) P
    | some (some (.fence f)) => UrcPool.look (Urc.fence f) (fun F => .nat F.weak) P
    | _ => .ok .unit P
  | .isSole h => match P.hands[h]? with
    | some (some (.urc f)) => UrcPool.look (Urc.isSole f) .bool P
    | _ => .ok .unit P
  | .setMut h x => match P.hands[h]? with
    | some (some (.urc f)) =>
      UrcPool.look (do
        if ← Urc.getMut c f then do
          let old ← Urc.write f fun _ => x
          pure (some old)
        else pure none) .opt P
    | _ => .ok .unit P
  | .makeMut h g => match P.hands[h]? with
    | some (some (.urc f)) => UrcPool.makeMut c h f g P
    | _ => .ok .unit P
  | .tryUnwrap h => match P.hands[h]? with
    | some (some (.urc f)) =>
      UrcPool.on (Urc.tryUnwrap f)
        (fun r => match r with
          | some _ => P.hands.set h none
          | none => P.hands) (P.hands.set h none) .opt P
    | _ => .ok .unit P
  | .intoFence h => match P.hands[h]? with
    | some (some (.urc f)) =>
      UrcPool.on (Urc.intoFence f)
        (fun b => if b then P.hands.set h (some (.fence f)) else P.hands) P.hands .bool P
    | _ => .ok .unit P
  | .fromFence h => match P.hands[h]? with
    | some (some (.fence f)) =>
      UrcPool.on (Urc.fromFence c f) (fun g => P.hands.set h (some (.urc g))) (P.hands.set h none)
        (fun _ => .unit) P
    | _ => .ok .unit P

/-- The client has the handle it names, and it is of the right kind. -/
def UrcCmd.Callable (P : UrcPool α) : UrcCmd α → Prop
  | .new _ => True
  | .drop h => ∃ k, P.hands[h]? = some (some k)
  | .strongCount h | .weakCount h =>
    (∃ f, P.hands[h]? = some (some (.urc f))) ∨ ∃ f, P.hands[h]? = some (some (.fence f))
  | .fromFence h => ∃ f, P.hands[h]? = some (some (.fence f))
  | .clone h | .downgrade h | .envelop h | .read h | .isSole h | .setMut h _ | .makeMut h _
  | .tryUnwrap h | .intoFence h => ∃ f, P.hands[h]? = some (some (.urc f))

/-- The next two requests for memory are granted. -/
def UrcWorld.Granted (c : Cfg α) (w : UrcWorld α) : Prop :=
  c.grant w.tick c.size = true ∧ c.grant (w.tick + 1) c.size = true

/-- The calls that do not run into the faults of `try_unwrap`, `make_mut` and `into_inner` (C71, C72, C84).
`make_mut`: there is another fence, or the value is cloned, or it is a release build, the handle is the only one
in its fence, and memory is granted. `try_unwrap`: there is another fence, or the handle is the only `Urc` of its
fence, and has a `Weak`. -/
def UrcCmd.Permitted (c : Cfg α) (P : UrcPool α) (cmd : UrcCmd α) : Prop :=
  cmd.Callable P ∧
  match cmd with
  | .makeMut h _ => ∀ f F x, P.hands[h]? = some (some (.urc f)) → P.w.fences[f]? = some (some F) →
      P.w.masters[F.master]? = some (some x) →
      x.sf ≠ 1 ∨ (x.wf = 1 ∧ F.weak ≠ 0 ∧ F.strong ≠ 1) ∨
      (c.debug = false ∧ F.strong = 1 ∧ P.w.Granted c)
  | .tryUnwrap h => ∀ f F x, P.hands[h]? = some (some (.urc f)) → P.w.fences[f]? = some (some F) →
      P.w.masters[F.master]? = some (some x) → x.sf ≠ 1 ∨ (F.strong = 1 ∧ F.weak ≠ 0)
  | .fromFence _ => False
  | _ => True

/-- A call, whether it returns or panics. -/
inductive UrcHappens (c : Cfg α) (P : UrcPool α) (cmd : UrcCmd α) : Option (UrcOut α) → UrcPool α → Prop
  | ret {o P'} : runUrc c cmd P = .ok o P' → UrcHappens c P cmd (some o) P'
  | panic {P'} : runUrc c cmd P = .panic P' → UrcHappens c P cmd none P'

/-- Client programs, making calls allowed by `ok`, that caught every panic and went on: the calls with what
they returned (`none`: panic), and the state reached. -/
inductive UrcReaches (c : Cfg α) (ok : UrcPool α → UrcCmd α → Prop) :
    List (UrcCmd α × Option (UrcOut α)) → UrcPool α → Prop
  | start : UrcReaches c ok [] .start
  | step {hist P P' cmd o} : UrcReaches c ok hist P → ok P cmd → UrcHappens c P cmd o P' →
      UrcReaches c ok (hist ++ [(cmd, o)]) P'

end Lokky
