import Verif.Model.Boxed
import Verif.Model.Handles
import Verif.Spec.Boxes

/-!
# Client programs with boxes

Not code of the crate: a client that has any number of `Box<T>` (boxed.rs 7) of one type, and calls their functions in any order.
-/

namespace Lokky
variable {α : Type}

/-- All boxes there ever were (`none`: gone), and the memory. -/
structure BoxPool (α : Type) where
  boxes : List (Option BoxH)
  w : World α

/-- Call a function of box `i`. A box that does not exist cannot be used. -/
def BoxPool.on {β : Type} (i : Nat) (m : M (BSt α) β) : M (BoxPool α) β := fun P =>
  match P.boxes[i]? with
  | some (some b) => match m ⟨b, P.w⟩ with
    | .ok a s => .ok a ⟨P.boxes, s.w⟩
    | .panic s => .panic ⟨P.boxes, s.w⟩
    | .abort => .abort
    | .ub u => .ub u
  | _ => .ub .badFree

/-- Box `i` is gone, also if the function that took it panicked. -/
def BoxPool.losing {β : Type} (i : Nat) (m : M (BoxPool α) β) : M (BoxPool α) β := fun P =>
  match m P with
  | .ok a P' => .ok a ⟨P'.boxes.set i none, P'.w⟩
  | .panic P' => .panic ⟨P'.boxes.set i none, P'.w⟩
  | .abort => .abort
  | .ub u => .ub u

/-- A call: `new_with` (boxed.rs 14-16), reading through the box (boxed.rs 69-75), assigning through the box (boxed.rs 77-81), `eq`
(boxed.rs 117-121), `into_inner` (boxed.rs 18-20), `drop` (ptr.rs 33-41), and scopes (scope.rs 114), which choose allocators. -/
def runBox (c : Cfg α) : Spec.BoxCmd α → M (BoxPool α) (Spec.BoxOut α)
  | .new x m => fun P => match Boxed.newWith c x m P.w with
    | .ok b w => .ok .unit ⟨P.boxes ++ [some b], w⟩
    | .panic w => .panic ⟨P.boxes, w⟩
    | .abort => .abort
    | .ub u => .ub u
  | .read i => do
    let a ← BoxPool.on i (Boxed.read c)
    pure (.val a)
  | .assign i x => do
    BoxPool.on i (Boxed.assign c x)
    pure .unit
  | .eq i j e => fun P => match P.boxes[i]?, P.boxes[j]? with
    | some (some a), some (some b) => match Boxed.eq c e ⟨(a, b), P.w⟩ with
      | .ok r s => .ok (.bool r) ⟨P.boxes, s.w⟩
      | .panic s => .panic ⟨P.boxes, s.w⟩
      | .abort => .abort
      | .ub u => .ub u
    | _, _ => .ub .badFree
  | .intoInner i => BoxPool.losing i do
    let a ← BoxPool.on i (Boxed.intoInner c)
    pure (.val a)
  | .drop i => BoxPool.losing i do
    BoxPool.on i (Boxed.drop c)
    pure .unit
  | .scope f => fun P => .ok .unit ⟨P.boxes, { P.w with allocFor := f }⟩

/-- The outcome of a call: it returned (`some`) or panicked. -/
inductive BoxHappens (c : Cfg α) (P : BoxPool α) (cmd : Spec.BoxCmd α) : Option (Spec.BoxOut α) → BoxPool α → Prop
  | ret {o P'} : runBox c cmd P = .ok o P' → BoxHappens c P cmd (some o) P'
  | panic {P'} : runBox c cmd P = .panic P' → BoxHappens c P cmd none P'

/-- The boxes a call uses exist (the borrow checker sees to that). -/
def BoxPool.Has (P : BoxPool α) : Spec.BoxCmd α → Prop
  | .new _ _ | .scope _ => True
  | .read i | .assign i _ | .intoInner i | .drop i => isThere P.boxes i = true
  | .eq i j _ => isThere P.boxes i = true ∧ isThere P.boxes j = true

/-- `into_inner`, which frees the memory twice (C27). -/
def Spec.BoxCmd.Unboxes : Spec.BoxCmd α → Prop
  | .intoInner _ => True
  | _ => False

/-- No boxes and no memory in use; everything else is arbitrary. -/
def BoxPool.Initial (P : BoxPool α) : Prop := P.boxes = [] ∧ (∀ p, P.w.heap p = none) ∧ P.w.log.drops = []

/-- A client program that caught every panic and went on: what it saw, and the state it reached. -/
inductive BoxReaches (c : Cfg α) (P0 : BoxPool α) : List (Spec.BoxCmd α × Option (Spec.BoxOut α)) → BoxPool α → Prop
  | start : BoxReaches c P0 [] P0
  | step {h P cmd o P'} : BoxReaches c P0 h P → P.Has cmd → BoxHappens c P cmd o P' → BoxReaches c P0 (h ++ [(cmd, o)]) P'

/-- Boxes (boxed.rs 7) as things that containers can keep, as in Verif/Model/Handles.lean. The calls are all but `into_inner`; the
destructor is ptr.rs 33-41. -/
def boxThings (c : Cfg α) : Things (BoxPool α) where
  alive P x := isThere P.boxes x
  made P := P.boxes.length
  use P P' := ∃ cmd o, P.Has cmd ∧ ¬ cmd.Unboxes ∧ BoxHappens c P cmd o P'
  drop x := fun P => match runBox c (.drop x) P with
    | .ok _ P' => .ok () P'
    | .panic P' => .panic P'
    | .abort => .abort
    | .ub u => .ub u

end Lokky
