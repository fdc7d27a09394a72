import Verif.Model.BorrowsScope
import Verif.Model.Borrows

/-!
# Scopes under Stacked Borrows with protectors

As Model/BorrowsScope.lean, with the rule on protectors that the other models leave out: a reference
that is an argument of a running function is *protected*, and it is against the rules to do anything
that takes its rights away, even if it is never used again.

Only `&mut self` of `Env::spawn` (scope.rs 127-128) is protected here. The other functions that get a
reference to the `Env` (`current`, scope.rs 156; `as_mut`, marker.rs 99) only read while they run.
-/

namespace Lokky.SB

open Lokky.Alias

/-- The machine, and the references that are protected. -/
abbrev Shielded := St × List Nat

/-- Does pointer `t` have rights in this stack? -/
def Stack.holds (t : Nat) (k : Stack) : Bool := k.any fun x => x.reads t

/-- Not code of the crate: do something with the block of the `Env` (slot 0, scope.rs 13-15). Afterwards all protected references must
have their rights. (Rights never come back, so it does not matter whether this is asked after every single
access or after several.) -/
def shielded {β : Type} (m : B β) : M Shielded β := fun s =>
  match m s.1 with
  | some (b, s') => if s.2.all fun t => (s'.stack 0).holds t then some (b, (s', s.2)) else none
  | none => none

/-- A function with the argument `t` begins (scope.rs 127-128). -/
def protect (t : Nat) : M Shielded Unit := fun s => some ((), (s.1, t :: s.2))

/-- The function that began last ends, by returning or by unwinding (scope.rs 149). -/
def unprotect : M Shielded Unit := fun s => some ((), (s.1, s.2.tail))

/-- `Env::spawn` (scope.rs 127-149) without its beginning and end. -/
def scBody (self : Nat) (init body : M Shielded Bool) : M Shielded Bool := do
  shielded (scPrev self)
  let p ← init
  if p then ret true else do
    shielded (scSet self)
    let q ← body
    if q then ret true else do
      shielded (scSet self)
      ret false

/-- `spawn` (scope.rs 180-185, 127-149). -/
def scSpawnP (init body : M Shielded Bool) : M Shielded Bool := do
  let self ← shielded envMut
  protect self
  let p ← scBody self init body
  unprotect
  ret p

/-- Run code: the calls of scope.rs 175-185 in order. The result says whether it unwinds. -/
def runP : EnvCode → M Shielded Bool
  | .skip => ret false
  | .current => do
    shielded scCurrent
    ret false
  | .spawn i b => scSpawnP (runP i) (runP b)
  | .seq a b => do
    let p ← runP a
    if p then ret true else runP b
  | .panic => ret true
  | .caught c => do
    let _ ← runP c
    ret false

end Lokky.SB
