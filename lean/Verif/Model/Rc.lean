import Verif.Model.Mem
import Verif.Spec.Rc

/-!
# `Rc<T>` and its `Weak<T>` (/repo/src/rc.rs)

The `RcBox`es live in a memory of their own, by address; an address is never used again.
`Rc<dyn Any>` (and so `downcast`, rc.rs 150-159) cannot be made by safe code, as there is no unsizing
conversion; `downcast` is in Verif/Model/Downcast.lean.
-/

namespace Lokky
open Spec
variable {α : Type}

/-- `RcBox` (rc.rs 13-18). -/
structure RcBox (α : Type) where
  strong : Nat
  weak : Nat
  val : α
deriving DecidableEq, Repr

/-- Memory: the boxes by address (`none`: released); allocator requests made and refused; calls of
`T::clone`; values whose destructor was run by `Rc`. -/
structure RcWorld (α : Type) where
  boxes : List (Option (RcBox α))
  tick : Nat
  refusals : Nat
  calls : Nat
  dropped : List α
deriving DecidableEq, Repr

namespace Rc
variable (c : Cfg α)

/-- `inner` and `inner_mut` (rc.rs 60-67, 256-262): access to the box. -/
def inner (p : Nat) : M (RcWorld α) (RcBox α) := fun w =>
  match w.boxes[p]? with
  | some (some b) => .ok b w
  | _ => .ub .oob

/-- Storing into the box. -/
def put (p : Nat) (b : RcBox α) : M (RcWorld α) Unit :=
  M.modify fun w => { w with boxes := w.boxes.set p (some b) }

/-- `dec_strong` (rc.rs 31-34); returns the old count. -/
def decStrong (p : Nat) : M (RcWorld α) Nat := do
  let b ← inner p
  let n ← usub c b.strong 1
  put p { b with strong := n }
  pure b.strong

/-- `set_zero_strong` (rc.rs 36-39). -/
def setZeroStrong (p : Nat) : M (RcWorld α) Unit := do
  let b ← inner p
  put p { b with strong := 0 }

/-- `inc_strong` (rc.rs 41-44); returns the old count. -/
def incStrong (p : Nat) : M (RcWorld α) Nat := do
  let b ← inner p
  let n ← uadd c b.strong 1
  put p { b with strong := n }
  pure b.strong

/-- `dec_weak` (rc.rs 46-49); returns the old count. -/
def decWeak (p : Nat) : M (RcWorld α) Nat := do
  let b ← inner p
  let n ← usub c b.weak 1
  put p { b with weak := n }
  pure b.weak

/-- `inc_weak` (rc.rs 51-54); returns the old count. -/
def incWeak (p : Nat) : M (RcWorld α) Nat := do
  let b ← inner p
  let n ← uadd c b.weak 1
  put p { b with weak := n }
  pure b.weak

/-- `drop_in_place` on a `MaybeDropped<T>` (rc.rs 165; marker.rs 18-22): it wraps a `ManuallyDrop<T>`
and has no destructor, so nothing happens. -/
def dropMaybeDropped (_ : α) : M (RcWorld α) Unit := pure ()

/-- `drop_in_place` on a `ManuallyDrop<ScopePtr<_>>` (rc.rs 172, 350), in an `Option` or not: nothing
happens. -/
def dropManually (_ : Nat) : M (RcWorld α) Unit := pure ()

/-- `ScopePtr::alloc` of a box (ptr.rs 181-199). The assignment `*ptr = value` drops the old contents
of the fresh memory, which does nothing for a `RcBox`. On refusal the new box is dropped, which does
not run the destructor of the value. -/
def alloc (b : RcBox α) : M (RcWorld α) (Option Nat) := fun w =>
  if c.grant w.tick c.size then
    .ok (some w.boxes.length) { w with boxes := w.boxes ++ [some b], tick := w.tick + 1 }
  else .ok none { w with tick := w.tick + 1, refusals := w.refusals + 1 }

/-- `new` (rc.rs 110-119). -/
def new (x : α) : M (RcWorld α) Nat := do
  match ← alloc c ⟨1, 0, x⟩ with
  | some p => pure p
  | none => M.boom

/-- `clone` of an `Rc` (rc.rs 198-203): the pointer is copied. -/
def clone (p : Nat) : M (RcWorld α) Nat := do
  let _ ← incStrong c p
  pure p

/-- `downgrade` (rc.rs 74-77). -/
def downgrade (p : Nat) : M (RcWorld α) Nat := do
  let _ ← incWeak c p
  pure p

/-- `strong_count` (rc.rs 83-85). -/
def strongCount (p : Nat) : M (RcWorld α) Nat := do
  let b ← inner p
  pure b.strong

/-- `weak_count` (rc.rs 79-81). -/
def weakCount (p : Nat) : M (RcWorld α) Nat := do
  let b ← inner p
  pure b.weak

/-- Releasing the box if nothing refers to it (rc.rs 170-173). -/
def dropBox (p : Nat) : M (RcWorld α) Unit := do
  let s ← strongCount p
  let k ← weakCount p
  if s = 0 ∧ k = 0 then dropManually p else pure ()

/-- `drop` of an `Rc` (rc.rs 161-175). -/
def drop (p : Nat) : M (RcWorld α) Unit := do
  let b ← inner p
  (if b.strong = 1 then dropMaybeDropped b.val
   else do
    let _ ← decStrong c p
    pure ())
  dropBox p

/-- `as_ref`, `deref`, `borrow` (rc.rs 177-196). -/
def asRef (p : Nat) : M (RcWorld α) α := do
  let b ← inner p
  pure b.val

/-- Writing through a `&mut T` obtained by `as_mut` (rc.rs 104-106); returns the old value. -/
def write (p : Nat) (f : α → α) : M (RcWorld α) α := do
  let b ← inner p
  put p { b with val := f b.val }
  pure b.val

/-- `get_mut` (rc.rs 87-93) with `is_single_ref` (rc.rs 22-24): whether it gives access. -/
def getMut (p : Nat) : M (RcWorld α) Bool := do
  let b ← inner p
  pure (b.strong == 1 && b.weak == 0)

/-- `try_unwrap` (rc.rs 121-128); `none` is `Err`, with the handle. Otherwise `this` is dropped at the
end. -/
def tryUnwrap (p : Nat) : M (RcWorld α) (Option α) := do
  let b ← inner p
  if b.strong = 1 then do
    drop c p
    pure (some b.val)
  else pure none

/-- `T::clone`. -/
def cloneVal (a : α) : M (RcWorld α) α := fun w =>
  match c.clone w.calls a with
  | some b => .ok b { w with calls := w.calls + 1 }
  | none => .panic { w with calls := w.calls + 1 }

/-- Code that works on the memory, beside a handle (the address of its box). -/
def lift {β : Type} (m : M (RcWorld α) β) : M (Nat × RcWorld α) β := fun s =>
  match m s.2 with
  | .ok a w => .ok a (s.1, w)
  | .panic w => .panic (s.1, w)
  | .abort => .abort
  | .ub u => .ub u

/-- `*this = Rc::new(x)` (rc.rs 141, 145): the new value is made, the old handle is dropped, and the new
one stored, also if that unwinds. -/
def assign (x : α) : M (Nat × RcWorld α) Unit := do
  let q ← lift (new c x)
  M.andAlways
    (do
      let s ← M.get
      lift (drop c s.1))
    (M.modify fun s => (q, s.2))

/-- `make_mut` (rc.rs 130-148). The state is the handle and the memory; afterwards the caller has
access to the value of the handle's box. -/
def makeMut : M (Nat × RcWorld α) Unit := do
  let s ← M.get
  let b ← lift (inner s.1)
  if b.strong = 1 then
    if b.weak ≠ 0 then do
      lift (setZeroStrong s.1)
      assign c b.val
    else pure ()
  else do
    let x ← lift (cloneVal c b.val)
    assign c x

/-- `upgrade` of a non-null `Weak` (rc.rs 264-276) with `is_dealloc` (rc.rs 27-29). -/
def upgrade (p : Nat) : M (RcWorld α) (Option Nat) := do
  let b ← inner p
  if b.strong ≠ 0 then do
    let _ ← incStrong c p
    pure (some p)
  else pure none

/-- `clone` of a non-null `Weak` (rc.rs 313-322). -/
def weakClone (p : Nat) : M (RcWorld α) Nat := do
  let _ ← incWeak c p
  pure p

/-- `drop` of a non-null `Weak` (rc.rs 344-355). -/
def weakDrop (p : Nat) : M (RcWorld α) Unit := do
  let old ← decWeak c p
  let s ← strongCount p
  if old = 0 ∧ s = 0 then dropManually p else pure ()

end Rc

/-! ## Client programs -/

/-- The handles of a client and the memory. -/
structure RcPool (α : Type) where
  hands : Hands
  w : RcWorld α
deriving DecidableEq

/-- Nothing made yet. -/
def RcPool.start : RcPool α := ⟨[], ⟨[], 0, 0, 0, []⟩⟩

namespace RcPool
variable {β : Type}

/-- Run code on the memory; the handles become `H` if it returns and `H'` if it unwinds. -/
def on (m : M (RcWorld α) β) (H : β → Hands) (H' : Hands) (out : β → RcOut α) :
    M (RcPool α) (RcOut α) := fun P =>
  match m P.w with
  | .ok a w => .ok (out a) ⟨H a, w⟩
  | .panic w => .panic ⟨H', w⟩
  | .abort => .abort
  | .ub u => .ub u

/-- Run code that only looks. -/
def look (m : M (RcWorld α) β) (out : β → RcOut α) : M (RcPool α) (RcOut α) := fun P =>
  on m (fun _ => P.hands) P.hands out P

/-- Run code that makes a handle. -/
def make (m : M (RcWorld α) β) (hand : β → Option Hand) (out : β → RcOut α) :
    M (RcPool α) (RcOut α) := fun P =>
  on m (fun a => match hand a with
    | some k => P.hands ++ [some k]
    | none => P.hands) P.hands out P

/-- `make_mut` on handle `h`, then changing the value by `f`. -/
def makeMut (c : Cfg α) (h p : Nat) (f : α → α) : M (RcPool α) (RcOut α) := fun P =>
  match Rc.makeMut c (p, P.w) with
  | .ok _ (q, w) => on (Rc.write q f) (fun _ => P.hands.set h (some (.rc q)))
      (P.hands.set h (some (.rc q))) .val ⟨P.hands, w⟩
  | .panic (q, w) => .panic ⟨P.hands.set h (some (.rc q)), w⟩
  | .abort => .abort
  | .ub u => .ub u

end RcPool

/-- Calls of a client program. A handle that is not there, or of the other kind, cannot be named by a
client (`Callable`); then nothing happens here. -/
def runRc (c : Cfg α) (cmd : RcCmd α) : M (RcPool α) (RcOut α) := fun P =>
  match cmd with
  | .new x => RcPool.make (Rc.new c x) (some ∘ .rc) (fun _ => .unit) P
  | .weakNew => .ok .unit ⟨P.hands ++ [some (.weak none)], P.w⟩
  | .clone h => match P.hands[h]? with
    | some (some (.rc p)) => RcPool.make (Rc.clone c p) (some ∘ .rc) (fun _ => .unit) P
    | some (some (.weak (some p))) =>
      RcPool.make (Rc.weakClone c p) (fun q => some (.weak (some q))) (fun _ => .unit) P
    | some (some (.weak none)) => .ok .unit ⟨P.hands ++ [some (.weak none)], P.w⟩
    | _ => .ok .unit P
  | .downgrade h => match P.hands[h]? with
    | some (some (.rc p)) =>
      RcPool.make (Rc.downgrade c p) (fun q => some (.weak (some q))) (fun _ => .unit) P
    | _ => .ok .unit P
  | .upgrade h => match P.hands[h]? with
    | some (some (.weak (some p))) =>
      RcPool.make (Rc.upgrade c p) (Option.map .rc) (fun q => .bool q.isSome) P
    | _ => .ok (.bool false) P
  | .drop h => match P.hands[h]? with
    | some (some (.rc p)) =>
      RcPool.on (Rc.drop c p) (fun _ => P.hands.set h none) (P.hands.set h none) (fun _ => .unit) P
    | some (some (.weak (some p))) =>
      RcPool.on (Rc.weakDrop c p) (fun _ => P.hands.set h none) (P.hands.set h none)
        (fun _ => .unit) P
    | _ => .ok .unit ⟨P.hands.set h none, P.w⟩
  | .read h => match P.hands[h]? with
    | some (some (.rc p)) => RcPool.look (Rc.asRef p) .val P
    | _ => .ok .unit P
  | .strongCount h => match P.hands[h]? with
    | some (some (.rc p)) => RcPool.look (Rc.strongCount p) .nat P
    | some (some (.weak (some p))) => RcPool.look (Rc.strongCount p) .nat P
    | _ => .ok (.nat 0) P
  | .weakCount h => match P.hands[h]? with
    | some (some (.rc p)) => RcPool.look (Rc.weakCount p) .nat P
    | some (some (.weak (some p))) => RcPool.look (Rc.weakCount p) .nat P
    | _ => .ok (.nat 0) P
  | .setMut h x => match P.hands[h]? with
    | some (some (.rc p)) =>
      RcPool.look (do
        if ← Rc.getMut p then do
          let old ← Rc.write p fun _ => x
          pure (some old)
        else pure none) .opt P
    | _ => .ok .unit P
  | .makeMut h f => match P.hands[h]? with
    | some (some (.rc p)) => RcPool.makeMut c h p f P
    | _ => .ok .unit P
  | .tryUnwrap h => match P.hands[h]? with
    | some (some (.rc p)) =>
      RcPool.on (Rc.tryUnwrap c p)
        (fun r => match r with
          | some _ => P.hands.set h none
          | none => P.hands) (P.hands.set h none) .opt P
    | _ => .ok .unit P
  | .ptrEq h h' => match P.hands[h]?, P.hands[h']? with
    | some (some (.rc p)), some (some (.rc q)) => .ok (.bool (p == q)) P
    | some (some (.weak p)), some (some (.weak q)) => .ok (.bool (p == q)) P
    | _, _ => .ok .unit P

/-- The client has the handles it names, and they are of the right kind. -/
def Spec.RcCmd.Callable (H : Hands) : RcCmd α → Prop
  | .new _ => True
  | .weakNew => True
  | .clone h => ∃ k, H[h]? = some (some k)
  | .drop h => ∃ k, H[h]? = some (some k)
  | .strongCount h => ∃ k, H[h]? = some (some k)
  | .weakCount h => ∃ k, H[h]? = some (some k)
  | .upgrade h => ∃ p, H[h]? = some (some (.weak p))
  | .downgrade h => ∃ p, H[h]? = some (some (.rc p))
  | .read h => ∃ p, H[h]? = some (some (.rc p))
  | .setMut h _ => ∃ p, H[h]? = some (some (.rc p))
  | .makeMut h _ => ∃ p, H[h]? = some (some (.rc p))
  | .tryUnwrap h => ∃ p, H[h]? = some (some (.rc p))
  | .ptrEq h h' => (∃ p q, H[h]? = some (some (.rc p)) ∧ H[h']? = some (some (.rc q))) ∨
      ∃ p q, H[h]? = some (some (.weak p)) ∧ H[h']? = some (some (.weak q))

/-- The calls that do not run into the faults of `make_mut` (C57): there is no `Weak` handle, or another
`Rc` handle. -/
def Spec.RcCmd.Tame (H : Hands) (cmd : RcCmd α) : Prop :=
  cmd.Callable H ∧
  match cmd with
  | .makeMut h _ => ∀ p, H[h]? = some (some (.rc p)) → H.weaks p = 0 ∨ 2 ≤ H.rcs p
  | _ => True

/-- Nor into that of `try_unwrap` (C56): there is no `Weak` handle. -/
def Spec.RcCmd.Permitted (H : Hands) (cmd : RcCmd α) : Prop :=
  cmd.Tame H ∧
  match cmd with
  | .tryUnwrap h => ∀ p, H[h]? = some (some (.rc p)) → H.weaks p = 0
  | _ => True

/-- The outcome of a call as an event of the client's history. -/
inductive RcHappens (c : Cfg α) (P : RcPool α) (cmd : RcCmd α) : RcEvent α → RcPool α → Prop
  | ret {o P'} : runRc c cmd P = .ok o P' →
      RcHappens c P cmd ⟨some o, P'.w.refusals != P.w.refusals⟩ P'
  | panic {P'} : runRc c cmd P = .panic P' →
      RcHappens c P cmd ⟨none, P'.w.refusals != P.w.refusals⟩ P'

/-- A client program, making calls allowed by `ok`, that caught every panic and went on: the history
it saw and the state it reached. -/
inductive RcReaches (c : Cfg α) (ok : Hands → RcCmd α → Prop) : RcHistory α → RcPool α → Prop
  | start : RcReaches c ok [] .start
  | step {hist P P' cmd ev} : RcReaches c ok hist P → ok P.hands cmd → RcHappens c P cmd ev P' →
      RcReaches c ok (hist ++ [(cmd, ev)]) P'

end Lokky
