import Verif.Spec.VecPrograms
import Verif.Spec.SmallPanic

/-!
# Programs that mix vectors, small vectors, by-value iterators and boxed slices, on lists

The calls of `Verif/Spec/VecPrograms.lean` and `Verif/Spec/SmallPanic.lean`, and the conversions between the
kinds. Everything a program makes gets the next number, whatever its kind, and keeps it when it is converted.
-/

namespace Lokky.Spec
variable {α : Type}

/-- Empty places up to number `n`. -/
def pad {β : Type} (n : Nat) (l : List (Option β)) : List (Option β) := l ++ List.replicate (n - l.length) none

/-- The vectors, the iterators and boxed slices, and the small vectors. -/
structure Mix (α : Type) extends Objs α where
  smalls : Lists α

/-- Calls of such programs. The functions given may panic. -/
inductive YCmd (α : Type) where
  | vec (cmd : XCmd α)
  | small (cmd : SCmd α)
  | retain (x : Nat) (f : Nat → α → Option Bool)
  | dedupBy (x : Nat) (same : Nat → α → α → Option Bool)
  | dedupByKey (x : Nat) (key : Nat → α → Option Nat)
  /-- `smalls[x].into_vec()` -/
  | intoVec (x : Nat)
  /-- `SmallVec::<n>::from(vecs[x])` -/
  | toSmall (x n : Nat)
  /-- `smalls[x].into_boxed_slice()` -/
  | intoBoxed (x : Nat)
  /-- `SmallVec::<n>::from(boxes[x])` -/
  | boxToSmall (x n : Nat)

/-- The small vector of a call of `retain` or `dedup`, and whether the function given may panic. -/
def YCmd.scans : YCmd α → Option (Nat × Prop)
  | .retain x f => some (x, ∃ k a, f k a = none)
  | .dedupBy x same => some (x, ∃ k a b, same k a b = none)
  | .dedupByKey x key => some (x, ∃ k a, key k a = none)
  | _ => none

/-- What a call may do: what the client sees, the state afterwards, the elements made by callbacks, dropped,
and neither dropped nor given back nor stored. -/
inductive YStep (cl : CloneRel α) (dp : α → Prop) :
    YCmd α → Event α → Mix α → Mix α → List α → List α → List α → Prop
  | vec {cmd ev S O made dropped leaked} : XStep cl dp cmd ev S.toObjs O made dropped leaked →
      YStep cl dp (.vec cmd) ev S ⟨O, pad O.vecs.length S.smalls⟩ made dropped leaked
  | small {cmd ev S L made dropped leaked} : SStepP cl dp cmd ev S.smalls L made dropped leaked →
      YStep cl dp (.small cmd) ev S ⟨⟨pad L.length S.vecs, S.objs⟩, L⟩ made dropped leaked
  | scan {cmd x P ev S l l' d lost} : cmd.scans = some (x, P) → S.smalls[x]? = some (some l) →
      l'.Sublist l → d.Sublist l → (l' ++ d ++ lost).Perm l → ScanEnds dp P ev d →
      YStep cl dp cmd ev S ⟨S.toObjs, S.smalls.set x (some l')⟩ [] d lost
  | intoVec {x l S} : S.smalls[x]? = some (some l) → S.vecs[x]? = some none →
      YStep cl dp (.intoVec x) (.ret .unit) S ⟨⟨S.vecs.set x (some l), S.objs⟩, S.smalls.set x none⟩ [] [] []
  | intoVecRefused {x l S} : S.smalls[x]? = some (some l) →
      YStep cl dp (.intoVec x) .refuse S ⟨S.toObjs, S.smalls.set x none⟩ [] l []
  | toSmall {x n l S} : S.vecs[x]? = some (some l) → S.smalls[x]? = some none →
      YStep cl dp (.toSmall x n) (.ret .unit) S
        ⟨⟨S.vecs.set x none, S.objs⟩, S.smalls.set x (some l)⟩ [] [] []
  | intoBoxed {x l S} : S.smalls[x]? = some (some l) →
      YStep cl dp (.intoBoxed x) (.ret .unit) S
        ⟨⟨S.vecs, (x, .box l) :: S.objs⟩, S.smalls.set x none⟩ [] [] []
  | intoBoxedRefused {x l S} : S.smalls[x]? = some (some l) →
      YStep cl dp (.intoBoxed x) .refuse S ⟨S.toObjs, S.smalls.set x none⟩ [] l []
  | boxToSmall {x n m S O} : S.objs.Perm ((x, .box m) :: O) → S.smalls[x]? = some none →
      YStep cl dp (.boxToSmall x n) (.ret .unit) S ⟨⟨S.vecs, O⟩, S.smalls.set x (some m)⟩ [] [] []

/-- A history of calls as seen by the client. -/
abbrev YHistory (α : Type) := List (YCmd α × Event α)

/-- Running a history from the empty state. -/
inductive YRuns (cl : CloneRel α) (dp : α → Prop) :
    YHistory α → Mix α → List α → List α → List α → Prop
  | start : YRuns cl dp [] ⟨⟨[], []⟩, []⟩ [] [] []
  | step {h S made dropped leaked cmd ev S' made' dropped' leaked'} : YRuns cl dp h S made dropped leaked →
      YStep cl dp cmd ev S S' made' dropped' leaked' →
      YRuns cl dp (h ++ [(cmd, ev)]) S' (made ++ made') (dropped ++ dropped') (leaked ++ leaked')

/-- Elements the client hands over by value in a call. -/
def YCmd.given : YCmd α → List α
  | .vec cmd => cmd.given
  | .small cmd => cmd.given
  | _ => []

/-- Elements the client gets back by value from a call. -/
def ytaken : YCmd α → Event α → List α
  | .vec cmd, ev => xtaken cmd ev
  | .small cmd, ev => cmd.taken ev
  | _, _ => []

/-- All elements handed over in a history. -/
def YHistory.given (h : YHistory α) : List α := h.flatMap fun e => e.1.given
/-- All elements given back in a history. -/
def YHistory.taken (h : YHistory α) : List α := h.flatMap fun e => ytaken e.1 e.2
/-- All elements in vectors, iterators, boxes and small vectors. -/
def Mix.contents (S : Mix α) : List α := S.toObjs.contents ++ Lists.contents S.smalls

end Lokky.Spec
