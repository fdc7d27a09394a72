import Verif.Model.Urc

/-!
# The addresses that `Urc` handles keep

A `Urc` keeps the address of its value beside that of its fence (`data`, urc.rs 119-125). `as_ref`, `as_ptr` and
`ptr_eq` use nothing else, so that they need the memory of the value, but neither the fence nor the value itself.
-/

namespace Lokky
variable {α : Type}

/-- The address of the value that fence `f` leads to. -/
def UrcPool.leadsTo (P : UrcPool α) (f : Nat) : Nat :=
  match P.w.fences[f]? with
  | some (some F) => F.master
  | _ => 0

/-- The addresses kept by the handles after a call that led from `P` to `P'`, where they were `D` before.
`clone` (urc.rs 490) and `envelop` (urc.rs 634) copy the address, `downgrade` (urc.rs 165-173) keeps that of the
same master. `new` (urc.rs 228-232), also inside `make_mut` (urc.rs 302-321), and `into_urc` (urc.rs 96-104) take it
from the fence. -/
def UrcCmd.data (cmd : UrcCmd α) (P P' : UrcPool α) (D : List Nat) : List Nat :=
  match cmd with
  | .clone h | .envelop h | .downgrade h =>
    if P.hands.length < P'.hands.length then D ++ [D.getD h 0] else D
  | .new _ => match P'.hands[P.hands.length]? with
    | some (some (.urc f)) => D ++ [P'.leadsTo f]
    | _ => D
  | .makeMut h _ => match P.hands[h]?, P'.hands[h]? with
    | some (some (.urc f)), some (some (.urc g)) => if f = g then D else D.set h (P'.leadsTo g)
    | _, _ => D
  | .fromFence h => match P'.hands[h]? with
    | some (some (.urc g)) => D.set h (P'.leadsTo g)
    | _ => D
  | _ => D

/-- Client programs as in `UrcReaches`, with the addresses kept by the handles. -/
inductive UrcHolds (c : Cfg α) : List (UrcCmd α × Option (UrcOut α)) → UrcPool α → List Nat → Prop
  | start : UrcHolds c [] .start []
  | step {hist P P' D cmd o} : UrcHolds c hist P D → cmd.Callable P → UrcHappens c P cmd o P' →
      UrcHolds c (hist ++ [(cmd, o)]) P' (cmd.data P P' D)

/-- `as_ref` and `as_ptr` (urc.rs 155-157, 462-467): the address kept by handle `i`. It must be that of a master
which is still allocated. -/
def Urc.asPtr (D : List Nat) (i : Nat) : M (UrcWorld α) Nat := do
  let _ ← Urc.master (D.getD i 0)
  pure (D.getD i 0)

/-- Reading the value of handle `i` (urc.rs 462-482) by the address that it keeps. `Urc.asRef`, which goes by way of
the fence, is undefined behaviour if the fence was given back; this is not. -/
def Urc.readKept (D : List Nat) (i : Nat) : M (UrcWorld α) α := Urc.data (D.getD i 0)

/-- `ptr_eq` (urc.rs 159-162) on handles `i` and `j`. -/
def Urc.ptrEqKept (D : List Nat) (i j : Nat) : M (UrcWorld α) Bool := do
  let a ← Urc.asPtr D i
  let b ← Urc.asPtr D j
  pure (a == b)

end Lokky
