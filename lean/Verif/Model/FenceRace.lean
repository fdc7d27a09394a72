import Verif.Model.Sending

/-!
# Threads that clone and drop `Urc`s of one fence

In an `Arc<Urc<T>>` that was put into an envelope, a fence gets into several threads (C130). Here its count of `Urc`s is read
and written step by step, and the threads take turns between steps. Each step takes effect at once, for all threads: the
best that can be hoped for where the language promises nothing. There are no `Weak`s. The master is left out.
-/

namespace Lokky

/-- Where a thread is.
* `clone`: about to read the count in `inc_strong` (urc.rs 74-77, 486)
* `cloned v`: it has read `v` and is about to write
* `drop`: about to read the count in `Drop for Urc` (urc.rs 499)
* `dropRead`: about to read the count in `dec_strong` (urc.rs 87-91, 521)
* `dropped v`: it has read `v` and is about to write -/
inductive FPc
  | idle
  | clone
  | cloned (v : Nat)
  | drop
  | dropRead
  | dropped (v : Nat)
deriving DecidableEq, Repr

/-- The count of a fence, whether it was released, and how many `Urc`s point to it: with the threads (`hands`), and inside
other values (`inside`). -/
structure FSys where
  strong : Nat
  released : Bool
  inside : Nat
  hands : List Nat
  pcs : List FPc
deriving DecidableEq, Repr

namespace FSys

/-- A call ends. -/
def next (s : FSys) (t : Nat) (pc : FPc) : FSys := { s with pcs := s.pcs.set t pc }

/-- Thread `t` has one `Urc` more. -/
def more (s : FSys) (t : Nat) : FSys := { s with hands := s.hands.modify t (· + 1) }

/-- Thread `t` has one `Urc` less. -/
def less (s : FSys) (t : Nat) : FSys := { s with hands := s.hands.modify t (· - 1) }

/-- One step of thread `t` (urc.rs 74-77, 87-91, 484-524). `none`: it reads or writes the count of a fence that was
released, or has nothing to do. Releases the fence if it is the only `Urc` by the count. -/
def step (s : FSys) (t : Nat) : Option FSys :=
  if s.released then none
  else match s.pcs[t]? with
    | some .clone => some (s.next t (.cloned s.strong))
    | some (.cloned v) => some (({ s with strong := v + 1 } : FSys).next t .idle |>.more t)
    | some .drop =>
      if s.strong = 1 then some (({ s with released := true } : FSys).next t .idle |>.less t)
      else some (s.next t .dropRead)
    | some .dropRead => some (s.next t (.dropped s.strong))
    | some (.dropped v) => some (({ s with strong := v - 1 } : FSys).next t .idle |>.less t)
    | _ => none

/-- What happens: a thread does a step, or begins to clone a `Urc` of this fence that it can reach, or to drop one that it
has. -/
inductive Act
  | step (t : Nat)
  | clone (t : Nat)
  | drop (t : Nat)
deriving DecidableEq, Repr

/-- Whether thread `t` is between calls. -/
def free (s : FSys) (t : Nat) : Bool := s.pcs[t]? == some .idle

/-- One thing happens. -/
def act (s : FSys) : Act → Option FSys
  | .step t => s.step t
  | .clone t => if s.free t && (0 < s.inside || s.hands[t]?.any (0 < ·)) then some (s.next t .clone) else none
  | .drop t => if s.free t && s.hands[t]?.any (0 < ·) then some (s.next t .drop) else none

/-- Things happen, one after the other. -/
def acts (s : FSys) : List Act → Option FSys
  | [] => some s
  | a :: as => match s.act a with
    | some s' => s'.acts as
    | none => none

/-- How many `Urc`s there are. -/
def handles (s : FSys) : Nat := s.inside + s.hands.sum

end FSys

end Lokky
