/-!
# Specification of client programs using `Rc`

What a client of `Rc` and `Weak` can see: its handles, and the values of the objects they refer to.
-/

namespace Lokky.Spec
variable {α : Type}

/-- A handle: an `Rc` of object `p`, a `Weak` of object `p`, or a `Weak` of nothing. -/
inductive Hand
  | rc (p : Nat)
  | weak (p : Option Nat)
deriving DecidableEq, Repr

/-- The handles of a client; `none`: dropped or moved away. -/
abbrev Hands := List (Option Hand)

/-- How many `Rc` handles of object `p` there are. -/
def Hands.rcs (H : Hands) (p : Nat) : Nat := H.count (some (.rc p))
/-- How many `Weak` handles of object `p` there are. -/
def Hands.weaks (H : Hands) (p : Nat) : Nat := H.count (some (.weak (some p)))

/-- Calls. `h` names a handle. `setMut h x` writes `x` through `get_mut`, `makeMut h f` changes the
value by `f` through `make_mut`; both show the old value. -/
inductive RcCmd (α : Type)
  | new (x : α)
  | clone (h : Nat)
  | downgrade (h : Nat)
  | upgrade (h : Nat)
  | weakNew
  | drop (h : Nat)
  | read (h : Nat)
  | strongCount (h : Nat)
  | weakCount (h : Nat)
  | setMut (h : Nat) (x : α)
  | makeMut (h : Nat) (f : α → α)
  | tryUnwrap (h : Nat)
  | ptrEq (h h' : Nat)

/-- What calls return. `bool` tells whether `upgrade` gave an `Rc`, or the result of `ptr_eq`; `opt`
is the old value, if `get_mut` gave access, or the value, if `try_unwrap` moved it out. -/
inductive RcOut (α : Type)
  | unit
  | bool (b : Bool)
  | val (a : α)
  | opt (a : Option α)
  | nat (n : Nat)
deriving DecidableEq, Repr

/-- What the client sees of a call: the returned value (`none`: it panicked), and whether the allocator
refused a request during the call. -/
structure RcEvent (α : Type) where
  out : Option (RcOut α)
  refused : Bool
deriving DecidableEq, Repr

/-- The call returned. -/
abbrev RcEvent.ret (o : RcOut α) : RcEvent α := ⟨some o, false⟩
/-- The call panicked. -/
abbrev RcEvent.panic : RcEvent α := ⟨none, false⟩
/-- The call panicked because memory was refused. -/
abbrev RcEvent.refuse : RcEvent α := ⟨none, true⟩

/-- Calls and what was seen of them, latest last. -/
abbrev RcHistory (α : Type) := List (RcCmd α × RcEvent α)

/-- An object: its value, whether it was ever left without `Rc` handles, and whether the value was moved
out of it. -/
structure RcObj (α : Type) where
  val : α
  orphan : Bool
  moved : Bool

/-- Handles and objects. -/
structure RcState (α : Type) where
  hands : Hands
  objs : List (RcObj α)

/-- The handle is the only one of its object, and the object never was without `Rc` handles. -/
def RcState.Alone (S : RcState α) (p : Nat) (o : RcObj α) : Prop :=
  S.hands.rcs p = 1 ∧ S.hands.weaks p = 0 ∧ o.orphan = false

/-- The handle is the only `Rc` of its object, which never was without. -/
def RcState.Only (S : RcState α) (p : Nat) (o : RcObj α) : Prop :=
  S.hands.rcs p = 1 ∧ o.orphan = false

/-- The effect of calls, as far as it does not depend on the faults of `Rc`: what `upgrade` and
`strong_count` return for orphans is what this implementation does (see C54, C55), and orphans found
again count as shared. -/
inductive RcStep : RcCmd α → RcEvent α → RcState α → RcState α → Prop
  | new (x S) : RcStep (.new x) (.ret .unit) S
      ⟨S.hands ++ [some (.rc S.objs.length)], S.objs ++ [⟨x, false, false⟩]⟩
  | newRefused (x S) : RcStep (.new x) .refuse S S
  | clone (h p S) : S.hands[h]? = some (some (.rc p)) →
      RcStep (.clone h) (.ret .unit) S ⟨S.hands ++ [some (.rc p)], S.objs⟩
  | cloneWeak (h p S) : S.hands[h]? = some (some (.weak p)) →
      RcStep (.clone h) (.ret .unit) S ⟨S.hands ++ [some (.weak p)], S.objs⟩
  | downgrade (h p S) : S.hands[h]? = some (some (.rc p)) →
      RcStep (.downgrade h) (.ret .unit) S ⟨S.hands ++ [some (.weak (some p))], S.objs⟩
  | upgrade (h p S) : S.hands[h]? = some (some (.weak (some p))) →
      RcStep (.upgrade h) (.ret (.bool true)) S ⟨S.hands ++ [some (.rc p)], S.objs⟩
  | upgradeNull (h S) : S.hands[h]? = some (some (.weak none)) →
      RcStep (.upgrade h) (.ret (.bool false)) S S
  | weakNew (S) : RcStep .weakNew (.ret .unit) S ⟨S.hands ++ [some (.weak none)], S.objs⟩
  | drop (h p o S) : S.hands[h]? = some (some (.rc p)) → S.objs[p]? = some o →
      RcStep (.drop h) (.ret .unit) S ⟨S.hands.set h none,
        if S.hands.rcs p = 1 then S.objs.set p ⟨o.val, true, o.moved⟩ else S.objs⟩
  | dropWeak (h p S) : S.hands[h]? = some (some (.weak p)) →
      RcStep (.drop h) (.ret .unit) S ⟨S.hands.set h none, S.objs⟩
  | read (h p o S) : S.hands[h]? = some (some (.rc p)) → S.objs[p]? = some o →
      RcStep (.read h) (.ret (.val o.val)) S S
  | strong (h p o S) : (S.hands[h]? = some (some (.rc p)) ∨
        S.hands[h]? = some (some (.weak (some p)))) → S.objs[p]? = some o →
      RcStep (.strongCount h) (.ret (.nat (S.hands.rcs p + if o.orphan then 1 else 0))) S S
  | strongNull (h S) : S.hands[h]? = some (some (.weak none)) →
      RcStep (.strongCount h) (.ret (.nat 0)) S S
  | weak (h p S) : (S.hands[h]? = some (some (.rc p)) ∨
        S.hands[h]? = some (some (.weak (some p)))) →
      RcStep (.weakCount h) (.ret (.nat (S.hands.weaks p))) S S
  | weakNull (h S) : S.hands[h]? = some (some (.weak none)) →
      RcStep (.weakCount h) (.ret (.nat 0)) S S
  | setMut (h x p o S) : S.hands[h]? = some (some (.rc p)) → S.objs[p]? = some o → S.Alone p o →
      RcStep (.setMut h x) (.ret (.opt (some o.val))) S ⟨S.hands, S.objs.set p ⟨x, false, false⟩⟩
  | setMutShared (h x p o S) : S.hands[h]? = some (some (.rc p)) → S.objs[p]? = some o →
      ¬ S.Alone p o → RcStep (.setMut h x) (.ret (.opt none)) S S
  | makeMut (h f p o S) : S.hands[h]? = some (some (.rc p)) → S.objs[p]? = some o → S.Alone p o →
      RcStep (.makeMut h f) (.ret (.val o.val)) S ⟨S.hands, S.objs.set p ⟨f o.val, false, o.moved⟩⟩
  | makeMutShared (h f p o S) : S.hands[h]? = some (some (.rc p)) → S.objs[p]? = some o →
      ¬ S.Alone p o → RcStep (.makeMut h f) (.ret (.val o.val)) S
        ⟨S.hands.set h (some (.rc S.objs.length)), S.objs ++ [⟨f o.val, false, o.moved⟩]⟩
  | makeMutPanic (h f S) : RcStep (.makeMut h f) .panic S S
  | makeMutRefused (h f S) : RcStep (.makeMut h f) .refuse S S
  | tryUnwrap (h p o S) : S.hands[h]? = some (some (.rc p)) → S.objs[p]? = some o → S.Only p o →
      RcStep (.tryUnwrap h) (.ret (.opt (some o.val))) S
        ⟨S.hands.set h none, S.objs.set p ⟨o.val, true, true⟩⟩
  | tryUnwrapShared (h p o S) : S.hands[h]? = some (some (.rc p)) → S.objs[p]? = some o →
      ¬ S.Only p o → RcStep (.tryUnwrap h) (.ret (.opt none)) S S
  | ptrEq (h h' p q S) : S.hands[h]? = some (some (.rc p)) → S.hands[h']? = some (some (.rc q)) →
      RcStep (.ptrEq h h') (.ret (.bool (p == q))) S S
  | ptrEqWeak (h h' p q S) : S.hands[h]? = some (some (.weak p)) →
      S.hands[h']? = some (some (.weak q)) → RcStep (.ptrEq h h') (.ret (.bool (p == q))) S S

/-- The history is possible and leads to these handles and objects. -/
inductive RcRuns : RcHistory α → RcState α → Prop
  | start : RcRuns [] ⟨[], []⟩
  | step {hist S S' cmd ev} : RcRuns hist S → RcStep cmd ev S S' → RcRuns (hist ++ [(cmd, ev)]) S'

end Lokky.Spec
