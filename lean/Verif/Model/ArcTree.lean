import Verif.Model.Arc
import Mathlib.Data.List.Basic

/-!
# Trees of `Arc`s that are changed through `make_mut` (/repo/src/arc.rs)

A node has a value and handles of further nodes, its kids. Nodes may be kids of several others and be used by several
threads; they are changed through the `&mut T` that `make_mut` and `get_mut` give. Every step of a thread is one atomic
operation, as in `Verif.Model.Arc`, and steps of threads interleave in any order. Memory is sequentially consistent.

Simplifications. Handles are named by their position in a list; any thread may use them (threads that send each other
handles, C130, C131). Calls that only read through a handle are one step. `T::clone` of a node clones its value, which
gives an equal value or panics, then its kids one after the other. Destructors of values do nothing but to drop the kids, and
do not panic. A kid is changed by taking it out of its node, which is then to be put back; the code that does so may hold
several `&mut T` at a time. A panic ends the call it happens in; what the program does about it is up to the program.
`Weak`s can only be made (arc.rs 33-36).
-/

namespace Lokky

/-! ## What is expected: everybody has a tree of their own -/

namespace Spec

/-- A tree. -/
inductive Tree (α : Type) where
  | node (val : α) (kids : List (Tree α))

namespace Tree
variable {α : Type}

/-- The value at the root. -/
def val : Tree α → α
  | node x _ => x

/-- The trees below the root. -/
def kids : Tree α → List (Tree α)
  | node _ ts => ts

/-- What there is at the end of a path: a value, and the number of kids. -/
def look (t : Tree α) : List Nat → Option (α × Nat)
  | [] => some (t.val, t.kids.length)
  | i :: path =>
    match t.kids[i]? with
    | some k => k.look path
    | none => none

end Tree

/-- What a program does with its trees, which are named by their position in a list, and what it sees. -/
inductive TreeEv (α : Type) where
  /-- a new tree from a value and the trees `hs`, which are used up -/
  | new (x : α) (hs : List Nat)
  /-- the trees `hs` are gone -/
  | gone (hs : List Nat)
  /-- a copy of tree `h` -/
  | copy (h : Nat)
  /-- a copy of kid `i` of tree `h` -/
  | copyKid (h i : Nat)
  /-- the program looks at the end of a path in tree `h`, and sees `r` -/
  | look (h : Nat) (path : List Nat) (r : Option (α × Nat))
  /-- another value at the root of tree `h` -/
  | write (h : Nat) (x : α)
  /-- tree `h'` becomes kid `i` of tree `h` -/
  | put (h i h' : Nat)
  /-- kid `i` of tree `h` becomes a tree of its own -/
  | take (h i : Nat)
  /-- tree `h` is taken apart: the program gets the value `x`, and every kid becomes a tree of its own -/
  | apart (h : Nat) (x : α)
deriving DecidableEq, Repr

variable {α : Type}

/-- Without the entries at `hs`. -/
def clear {β : Type} (l : List (Option β)) (hs : List Nat) : List (Option β) := hs.foldl (fun l h => l.set h none) l

/-- The entries at `hs`. -/
def pull {β : Type} (l : List (Option β)) (hs : List Nat) : List β := hs.filterMap fun h => (l[h]?).join

/-- What becomes of the trees. `none`: this cannot happen, as trees are missing or the program sees something else. -/
def TreeEv.play [DecidableEq α] (f : List (Option (Tree α))) : TreeEv α → Option (List (Option (Tree α)))
  | .new x hs => if hs.Nodup ∧ (pull f hs).length = hs.length then some (clear f hs ++ [some (.node x (pull f hs))]) else none
  | .gone hs => some (clear f hs)
  | .copy h => (f[h]?).join.map fun t => f ++ [some t]
  | .copyKid h i => (f[h]?).join.bind fun t => t.kids[i]?.map fun k => f ++ [some k]
  | .look h path r => (f[h]?).join.bind fun t => if t.look path = r then some f else none
  | .write h x => (f[h]?).join.map fun t => f.set h (some (.node x t.kids))
  | .put h i h' => (f[h]?).join.bind fun t => (f[h']?).join.bind fun t' =>
      if h' ≠ h ∧ i ≤ t.kids.length then some ((f.set h' none).set h (some (.node t.val (t.kids.insertIdx i t')))) else none
  | .take h i => (f[h]?).join.bind fun t => t.kids[i]?.map fun k =>
      f.set h (some (.node t.val (t.kids.eraseIdx i))) ++ [some k]
  | .apart h x => (f[h]?).join.bind fun t => if t.val = x then some (f.set h none ++ t.kids.map some) else none

/-- … after all that happened, beginning without trees. -/
def playTrees [DecidableEq α] (log : List (TreeEv α)) : Option (List (Option (Tree α))) :=
  log.foldlM TreeEv.play []

end Spec

/-! ## The code -/

variable {α : Type}

/-- `ArcInner` (arc.rs 17-23) of a node: counts, value and kids, whether they are there, and whether the memory was released. -/
structure CowObj (α : Type) where
  strong : Nat
  weak : Nat
  val : α
  kids : List Nat
  alive : Bool
  freed : Bool
deriving DecidableEq, Repr

/-- What a thread has still to do. `h` is the name of the handle that a call has taken, `p` its object. -/
inductive CowOp (α : Type)
  /-- `drop` of a handle: about to `fetch_sub` (arc.rs 505); `z`: `make_mut` has set `strong` to zero (arc.rs 197-202) -/
  | sub (p : Nat) (z : Bool)
  /-- `drop_slow`: about to drop the value (arc.rs 352) -/
  | fin (p : Nat)
  /-- `drop_slow`, `try_unwrap`: about to load `weak` (arc.rs 355, 240) -/
  | look (p : Nat)
  /-- `drop_slow`, `try_unwrap`: about to release the memory (arc.rs 356, 241) -/
  | free (p : Nat)
  /-- `try_unwrap`: about to move the value out (arc.rs 237) -/
  | unw (h p : Nat)
  /-- `is_unique`: about to lock `weak` (arc.rs 321-326) -/
  | get0 (h p : Nat)
  /-- `is_unique`: about to load `strong` (arc.rs 331) -/
  | get1 (h p : Nat)
  /-- `is_unique`: about to unlock `weak` (arc.rs 336); `u`: `strong` was 1 -/
  | get2 (h p : Nat) (u : Bool)
  /-- `make_mut`: about to load `strong` (arc.rs 176) -/
  | mm0 (h p : Nat)
  /-- `make_mut`: about to load `weak` (arc.rs 177); `strong` was `k` -/
  | mm1 (h p k : Nat)
  /-- `make_mut`: incrementing `weak`, which was `w` (arc.rs 193, 73-95) -/
  | mm2 (h p w : Nat)
  /-- `make_mut`: about to set `strong`, which was 1, to zero (arc.rs 197, 104-109) -/
  | mm3 (h p : Nat)
  /-- `make_mut`: about to move the node out (arc.rs 200) -/
  | mm4 (h p : Nat)
  /-- `make_mut`: about to clone the value of the node (arc.rs 208, 215) -/
  | mmV (h p : Nat)
  /-- `make_mut`: cloning the kids; `x` and `got` is what there is of the clone (arc.rs 208, 215) -/
  | mmC (h p : Nat) (x : α) (got : List Nat)
  /-- `make_mut`: about to allocate an object for the node of `x` and `ks` (arc.rs 202, 209, 216) -/
  | mmA (h p : Nat) (x : α) (ks : List Nat) (z : Bool)
  /-- the program has a `&mut T` from `get_mut` or `make_mut` (arc.rs 296-307, 219) -/
  | held (h p : Nat)
deriving DecidableEq, Repr

/-- The whole system: objects by address, the handles of the program by name, those that were forgotten, what threads have to
do, first things first, and what the program did and saw. -/
structure CowSys (α : Type) where
  objs : List (CowObj α)
  hands : List (Option Nat)
  lost : List Nat
  threads : List (List (CowOp α))
  log : List (Spec.TreeEv α)
deriving DecidableEq, Repr

/-- `n` threads that have done nothing yet. -/
def CowSys.start (n : Nat) : CowSys α := ⟨[], [], [], List.replicate n [], []⟩

/-- What is not determined by the program: spurious failures of `compare_exchange_weak`, the answer of the allocator, whether
`T::clone` panics. -/
structure CowChoice where
  fail : Bool := false
  grant : Bool := true
  boom : Bool := false
deriving DecidableEq, Repr

namespace Cow

/-- Access to the memory of an object. -/
def obj (p : Nat) : M (CowSys α) (CowObj α) := fun s =>
  match s.objs[p]? with
  | some o => if o.freed then .ub .oob else .ok o s
  | none => .ub .oob

/-- Access to the node in an object. -/
def data (p : Nat) : M (CowSys α) (CowObj α) := do
  let o ← obj p
  if o.alive then pure o else M.undef .uninit

/-- Storing. -/
def put (p : Nat) (o : CowObj α) : M (CowSys α) Unit :=
  M.modify fun s => { s with objs := s.objs.set p o }

/-- What thread `t` has to do now. -/
def go (t : Nat) (ops : List (CowOp α)) : M (CowSys α) Unit :=
  M.modify fun s => { s with threads := s.threads.set t ops }

/-- Handle `h`, or none, is with the program. -/
def give (h : Nat) (p : Option Nat) : M (CowSys α) Unit :=
  M.modify fun s => { s with hands := s.hands.set h p }

/-- More handles for the program. -/
def more (ps : List Nat) : M (CowSys α) Unit :=
  M.modify fun s => { s with hands := s.hands ++ ps.map some }

/-- Something happened. -/
def tell (e : Spec.TreeEv α) : M (CowSys α) Unit :=
  M.modify fun s => { s with log := s.log ++ [e] }

/-- What there is at the end of a path (`deref`, arc.rs 377-384, again and again). -/
def walk : Nat → List Nat → M (CowSys α) (Option (α × Nat))
  | p, [] => do
    let o ← data p
    pure (some (o.val, o.kids.length))
  | p, i :: path => do
    let o ← data p
    match o.kids[i]? with
    | some q => walk q path
    | none => pure none

/-- A new handle (arc.rs 466-497). `fetch_add(1)` wraps around; above `isize::MAX` it panics without a handle. -/
def grow (mx p : Nat) (e : Spec.TreeEv α) : M (CowSys α) Unit := do
  let o ← obj p
  put p { o with strong := Arc.incr mx o.strong }
  if o.strong > mx then pure ()
  else do
    more [p]
    tell e

/-- One step of thread `t`, whose first thing to do is the last argument, followed by `r`. -/
def step (mx : Nat) (ch : CowChoice) (t : Nat) (r : List (CowOp α)) : CowOp α → M (CowSys α) Unit
  -- `drop` (arc.rs 499-541)
  | .sub p _ => do
    let o ← obj p
    put p { o with strong := Arc.decr mx o.strong }
    go t (if o.strong = 1 then .fin p :: r else r)
  -- `drop_slow` (arc.rs 349-358): the node goes, and its kids are dropped
  | .fin p => do
    let o ← data p
    put p { o with alive := false }
    go t (o.kids.map (.sub · false) ++ .look p :: r)
  -- `drop_slow` (arc.rs 355-357), `try_unwrap` (arc.rs 240-242)
  | .look p => do
    let o ← obj p
    go t (if o.weak = 0 then .free p :: r else r)
  | .free p => do
    let o ← obj p
    put p { o with freed := true }
    go t r
  -- `try_unwrap` (arc.rs 235-248): the program has the node
  | .unw h p => do
    let o ← data p
    put p { o with alive := false }
    more o.kids
    tell (.apart h o.val)
    go t (.look p :: r)
  -- `get_mut` (arc.rs 296-307) with `is_unique` (arc.rs 313-340)
  | .get0 h p => do
    let o ← obj p
    if o.weak = 0 then do
      put p { o with weak := Arc.lock mx }
      go t (.get1 h p :: r)
    else do
      give h (some p)
      go t r
  | .get1 h p => do
    let o ← obj p
    go t (.get2 h p (o.strong == 1) :: r)
  | .get2 h p u => do
    let o ← obj p
    put p { o with weak := 0 }
    if u then go t (.held h p :: r)
    else do
      give h (some p)
      go t r
  -- `make_mut` (arc.rs 172-220)
  | .mm0 h p => do
    let o ← obj p
    go t (.mm1 h p o.strong :: r)
  | .mm1 h p k => do
    let o ← obj p
    if k = 1 then
      if o.weak = 0 then go t (.held h p :: r) else go t (.mm2 h p o.weak :: r)
    else go t (.mmV h p :: r)
  | .mm2 h p w => do
    let o ← obj p
    if o.weak = w ∧ ch.fail = false then do
      put p { o with weak := Arc.incr mx w }
      go t (.mm3 h p :: r)
    else go t (.mm2 h p o.weak :: r)
  | .mm3 h p => do
    let o ← obj p
    if o.strong = 1 ∧ ch.fail = false then do
      put p { o with strong := 0 }
      go t (.mm4 h p :: r)
    else go t (.mmV h p :: r)
  | .mm4 h p => do
    let o ← data p
    put p { o with alive := false }
    go t (.mmA h p o.val o.kids true :: r)
  | .mmV h p => do
    let o ← data p
    if ch.boom then do
      give h (some p)
      go t r
    else go t (.mmC h p o.val [] :: r)
  -- the kids are cloned (arc.rs 466-497); where this panics the part of the clone that is there is dropped
  | .mmC h p x got => do
    let o ← data p
    match o.kids[got.length]? with
    | some q => do
      let k ← obj q
      put q { k with strong := Arc.incr mx k.strong }
      if k.strong > mx then do
        give h (some p)
        go t (got.map (.sub · false) ++ r)
      else go t (.mmC h p x (got ++ [q]) :: r)
    | none => go t (.mmA h p x got false :: r)
  -- `Arc::new` (arc.rs 135-150; ptr.rs 181-199); if memory is refused, the node is not dropped: the clone is forgotten, but what was
  -- moved out counts as being in its place again. Else the assignment drops the old handle
  | .mmA h p x ks z =>
    if ch.grant then do
      let s ← M.get
      M.modify fun s => { s with objs := s.objs ++ [⟨1, 0, x, ks, true, false⟩] }
      go t (.sub p z :: .held h s.objs.length :: r)
    else do
      M.modify fun s => if z then { s with objs := s.objs.modify p fun o => { o with alive := true } }
        else { s with lost := s.lost ++ ks }
      give h (some p)
      go t r
  -- it is the program's turn
  | .held _ _ => pure ()

end Cow

/-- Calls, and what else a program can do. -/
inductive CowCmd (α : Type)
  /-- `Arc::new` of a node with the handles `hs` (arc.rs 135-150) -/
  | new (x : α) (hs : List Nat)
  /-- `clone` (arc.rs 466-497) -/
  | clone (h : Nat)
  /-- `clone` of a handle in the node -/
  | cloneKid (h i : Nat)
  /-- reading along a path -/
  | read (h : Nat) (path : List Nat)
  /-- `downgrade` (arc.rs 259-267), in one step -/
  | downgrade (h : Nat)
  /-- `drop` (arc.rs 499-541) -/
  | drop (h : Nat)
  /-- `mem::forget` -/
  | forget (h : Nat)
  /-- `try_unwrap` (arc.rs 224-249) -/
  | unwrap (h : Nat)
  /-- `get_mut` (arc.rs 296-307) -/
  | getMut (h : Nat)
  /-- `make_mut` (arc.rs 172-220) -/
  | makeMut (h : Nat)
  /-- the value of the node behind the `&mut T` is replaced -/
  | write (x : α)
  /-- handle `h` becomes kid `i` of the node behind the `&mut T` -/
  | put (i h : Nat)
  /-- kid `i` is taken out of the node behind the `&mut T` -/
  | take (i : Nat)
  /-- the `&mut T` is not used any more -/
  | letGo
deriving DecidableEq, Repr

/-- The thread runs code of the program, which may have a `&mut T`: it is not inside a call of the crate (arc.rs 296-307, 219). -/
def CowOp.client : List (CowOp α) → Bool
  | [] | .held _ _ :: _ => true
  | _ => false

/-- The object of handle `h`, for a thread that has to do `ops`: it can look at the node through a handle (arc.rs 377-384), or through
its `&mut T` (arc.rs 219, 296-307). -/
def CowSys.place (s : CowSys α) (ops : List (CowOp α)) (h : Nat) : Option Nat :=
  match ops with
  | .held h' p :: _ => if h' = h then some p else (s.hands[h]?).join
  | _ => (s.hands[h]?).join

/-- What the compiler makes sure of: a program uses handles that it has, and a `&mut T` that it has. -/
def CowCmd.legal (s : CowSys α) (ops : List (CowOp α)) : CowCmd α → Prop
  | .new _ hs => hs.Nodup ∧ ∀ h ∈ hs, ∃ p, s.hands[h]? = some (some p)
  | .cloneKid h _ | .read h _ => ∃ p, s.place ops h = some p
  | .clone h | .downgrade h | .drop h | .forget h | .unwrap h | .getMut h | .makeMut h => ∃ p, s.hands[h]? = some (some p)
  | .write _ | .take _ | .letGo => ∃ h p r, ops = .held h p :: r
  | .put _ h' => (∃ h p r, ops = .held h p :: r) ∧ ∃ q, s.hands[h']? = some (some q)

namespace Cow

/-- With the object of handle `h` (arc.rs 377-384). -/
def through (ops : List (CowOp α)) (h : Nat) (k : Nat → M (CowSys α) Unit) : M (CowSys α) Unit := fun s =>
  match s.place ops h with
  | some p => k p s
  | none => .ok () s

/-- With the `&mut T` that the thread got last (arc.rs 219, 296-307). -/
def within (ops : List (CowOp α)) (k : Nat → Nat → List (CowOp α) → M (CowSys α) Unit) : M (CowSys α) Unit :=
  match ops with
  | .held h p :: r => k h p r
  | _ => pure ()

/-- `try_unwrap` (arc.rs 224-249) begins with a `compare_exchange`. -/
def unwrap (t : Nat) (ops : List (CowOp α)) (h p : Nat) : M (CowSys α) Unit := do
  let o ← obj p
  if o.strong = 1 then do
    put p { o with strong := 0 }
    give h none
    go t (.unw h p :: ops)
  else pure ()

/-- `downgrade` (arc.rs 259-267) waits for `is_unique` (arc.rs 261, 64-71). -/
def downgrade (mx p : Nat) : M (CowSys α) Unit := do
  let o ← obj p
  if o.weak = Arc.lock mx then pure () else put p { o with weak := Arc.incr mx o.weak }

/-- `clone` (arc.rs 466-497) of kid `i`, which the program reaches through handle `h`. -/
def growKid (mx h i p : Nat) : M (CowSys α) Unit := do
  let o ← data p
  match o.kids[i]? with
  | some q => grow mx q (.copyKid h i)
  | none => pure ()

/-- Handle `h'` becomes kid `i` of the node in `p`, through the `&mut T` of handle `h` (arc.rs 219, 296-307). -/
def putKid (i h' h p : Nat) : M (CowSys α) Unit := do
  let o ← data p
  let s ← M.get
  match (s.hands[h']?).join with
  | some q =>
    if i ≤ o.kids.length then do
      put p { o with kids := o.kids.insertIdx i q }
      give h' none
      tell (.put h i h')
    else pure ()
  | none => pure ()

/-- Kid `i` of the node in `p` is taken out, through the `&mut T` of handle `h` (arc.rs 219, 296-307). -/
def takeKid (i h p : Nat) : M (CowSys α) Unit := do
  let o ← data p
  match o.kids[i]? with
  | some q => do
    put p { o with kids := o.kids.eraseIdx i }
    more [q]
    tell (.take h i)
  | none => pure ()

/-- `Arc::new` (arc.rs 135-150). Where memory is refused the node is not dropped, as it is in a `MaybeDropped`
(arc.rs 140-149; ptr.rs 181-185). -/
def new (grant : Bool) (x : α) (hs : List Nat) : M (CowSys α) Unit :=
  if grant then
    M.modify fun s => { s with
      objs := s.objs ++ [⟨1, 0, x, Spec.pull s.hands hs, true, false⟩]
      hands := Spec.clear s.hands hs ++ [some s.objs.length]
      log := s.log ++ [.new x hs] }
  else
    M.modify fun s => { s with
      hands := Spec.clear s.hands hs
      lost := s.lost ++ Spec.pull s.hands hs
      log := s.log ++ [.gone hs] }

/-- A call by thread `t`, which has `ops` to do; of calls that take several steps this is the beginning. `grant`: the allocator has
memory. -/
def call (mx t : Nat) (ops : List (CowOp α)) (grant : Bool) : CowCmd α → M (CowSys α) Unit
  | .new x hs => new grant x hs
  | .clone h => through ops h fun p => grow mx p (.copy h)
  | .cloneKid h i => through ops h fun p => growKid mx h i p
  | .read h path => through ops h fun p => do
    let r ← walk p path
    tell (.look h path r)
  | .downgrade h => through ops h fun p => downgrade mx p
  | .drop h => through ops h fun p => do
    give h none
    tell (.gone [h])
    go t (.sub p false :: ops)
  | .forget h => through ops h fun p => do
    give h none
    tell (.gone [h])
    M.modify fun s => { s with lost := s.lost ++ [p] }
  | .unwrap h => through ops h fun p => unwrap t ops h p
  | .getMut h => through ops h fun p => do
    give h none
    go t (.get0 h p :: ops)
  | .makeMut h => through ops h fun p => do
    give h none
    go t (.mm0 h p :: ops)
  | .write x => within ops fun h p _ => do
    let o ← data p
    put p { o with val := x }
    tell (.write h x)
  | .put i h' => within ops fun h p _ => putKid i h' h p
  | .take i => within ops fun h p _ => takeKid i h p
  | .letGo => within ops fun h p r => do
    give h (some p)
    go t r

end Cow

/-- What a call is to do to the trees `f` and what it is to show, from arc.rs 135-150, 224-307, 377-384, 466-541. `me`: the tree that
the thread has a `&mut T` of. Calls that give or end a `&mut T`, or make a `Weak`, do nothing to the trees; `try_unwrap` does only when it has
moved the node out. -/
def CowCmd.shows (grant : Bool) (me : Option Nat) (f : List (Option (Spec.Tree α))) : CowCmd α → List (Spec.TreeEv α)
  | .new x hs => if grant then [.new x hs] else [.gone hs]
  | .clone h => [.copy h]
  | .cloneKid h i => if i < (((f[h]?).join.map Spec.Tree.kids).getD []).length then [.copyKid h i] else []
  | .read h path => [.look h path ((f[h]?).join.bind fun t => t.look path)]
  | .drop h | .forget h => [.gone [h]]
  | .write x => me.toList.map fun h => .write h x
  | .put i h' => me.toList.flatMap fun h =>
      if i ≤ (((f[h]?).join.map Spec.Tree.kids).getD []).length then [.put h i h'] else []
  | .take i => me.toList.flatMap fun h =>
      if i < (((f[h]?).join.map Spec.Tree.kids).getD []).length then [.take h i] else []
  | .downgrade _ | .unwrap _ | .getMut _ | .makeMut _ | .letGo => []

/-- The handle that a thread has a `&mut T` of (arc.rs 219, 296-307). -/
def CowOp.mine : List (CowOp α) → Option Nat
  | .held h _ :: _ => some h
  | _ => none

/-- What a step is to do to the trees: `try_unwrap` takes the node apart when it moves it out (arc.rs 237), other steps do nothing. -/
def CowOp.shows (f : List (Option (Spec.Tree α))) : CowOp α → List (Spec.TreeEv α)
  | .unw h _ => ((f[h]?).join.map fun t => .apart h t.val).toList
  | _ => []

/-- `make_mut` has moved the node out, and is refused memory for it (arc.rs 200-202). -/
def CowOp.loses (ch : CowChoice) : CowOp α → Prop
  | .mmA _ _ _ _ z => z = true ∧ ch.grant = false
  | _ => False

/-- What can happen: a thread begins a call, or makes a step. Where `calm`, `make_mut` is not refused memory after it has moved
the node out. -/
inductive CowStep (mx : Nat) (calm : Prop) : CowSys α → CowSys α → Prop
  | call (t : Nat) (grant : Bool) (cmd : CowCmd α) {s s' : CowSys α} {ops : List (CowOp α)} :
      s.threads[t]? = some ops → CowOp.client ops = true → cmd.legal s ops →
      Cow.call mx t ops grant cmd s = .ok () s' → CowStep mx calm s s'
  | run (t : Nat) (ch : CowChoice) {s s' : CowSys α} {op : CowOp α} {r : List (CowOp α)} :
      s.threads[t]? = some (op :: r) → Cow.step mx ch t r op s = .ok () s' → (calm → ¬ op.loses ch) →
      CowStep mx calm s s'

/-- The states that any number of idle threads can reach in `n` steps. -/
inductive CowReaches (mx : Nat) (calm : Prop) : Nat → CowSys α → Prop
  | start (k : Nat) : CowReaches mx calm 0 (CowSys.start k)
  | step {n : Nat} {s s' : CowSys α} : CowReaches mx calm n s → CowStep mx calm s s' → CowReaches mx calm (n + 1) s'

/-- The same as a program: a call, or a step (arc.rs 135-541). -/
inductive CowMove (α : Type)
  | call (t : Nat) (grant : Bool) (cmd : CowCmd α)
  | run (t : Nat) (ch : CowChoice)

/-- There is such a handle (arc.rs 28). -/
def CowSys.hasHand (s : CowSys α) (h : Nat) : Bool := ((s.hands[h]?).join).isSome

/-- `legal`, computed: a program uses handles that it has (arc.rs 28), and a `&mut T` that it has (arc.rs 219, 296-307). -/
def CowCmd.fine (s : CowSys α) (ops : List (CowOp α)) : CowCmd α → Bool
  | .new _ hs => decide hs.Nodup && hs.all s.hasHand
  | .cloneKid h _ | .read h _ => (s.place ops h).isSome
  | .clone h | .downgrade h | .drop h | .forget h | .unwrap h | .getMut h | .makeMut h => s.hasHand h
  | .write _ | .take _ | .letGo => (CowOp.mine ops).isSome
  | .put _ h' => (CowOp.mine ops).isSome && s.hasHand h'

/-- Whether a step is one of `loses` (arc.rs 200-202), computed. -/
def CowOp.losing (ch : CowChoice) : CowOp α → Bool
  | .mmA _ _ _ _ z => z && !ch.grant
  | _ => false

/-- One move (arc.rs 135-541). `none`: it is not possible. -/
def CowSys.move (mx : Nat) (calm : Bool) (s : CowSys α) : CowMove α → Option (CowSys α)
  | .call t grant cmd =>
    match s.threads[t]? with
    | some ops =>
      if CowOp.client ops && cmd.fine s ops then
        match Cow.call mx t ops grant cmd s with
        | .ok _ s' => some s'
        | _ => none
      else none
    | none => none
  | .run t ch =>
    match s.threads[t]? with
    | some (op :: r) =>
      if calm && op.losing ch then none
      else
        match Cow.step mx ch t r op s with
        | .ok _ s' => some s'
        | _ => none
    | _ => none

/-- Many moves (arc.rs 135-541). -/
def CowSys.moves (mx : Nat) (calm : Bool) (s : CowSys α) (l : List (CowMove α)) : Option (CowSys α) :=
  l.foldlM (CowSys.move mx calm) s

end Lokky
