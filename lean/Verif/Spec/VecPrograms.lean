import Verif.Spec.ListsPanic

/-!
# Programs with vectors, by-value iterators and boxed slices, on lists

The calls of `Verif/Spec/ListsPanic.lean` and those that turn a vector into an iterator or a boxed
slice and back. A vector keeps its number when it is turned into something else. Of `retain` and `dedup`
it is only said that every element is kept, dropped or lost (C09, C10, C121 say which).
-/

namespace Lokky.Spec
variable {α : Type}

/-- A by-value iterator that still has to yield `m`, or a boxed slice `m`. -/
inductive Obj (α : Type) where
  | iter (m : List α)
  | box (m : List α)
deriving DecidableEq

/-- The elements inside. -/
def Obj.elems : Obj α → List α
  | .iter m => m
  | .box m => m

/-- The vectors, and the other objects with their numbers. -/
structure Objs (α : Type) where
  vecs : Lists α
  objs : List (Nat × Obj α)

/-- Calls of such programs. `f k`, `same k`, `key k` are the `k`-th calls of the functions given, which may
panic. -/
inductive XCmd (α : Type) where
  | call (cmd : Cmd α)
  | retain (x : Nat) (f : Nat → α → Option Bool)
  | dedupBy (x : Nat) (same : Nat → α → α → Option Bool)
  | dedupByKey (x : Nat) (key : Nat → α → Option Nat)
  | intoIter (x : Nat)
  | next (x : Nat)
  | nextBack (x : Nat)
  | rest (x : Nat)
  | dropIter (x : Nat)
  | intoBoxed (x : Nat)
  | readBox (x : Nat)
  | fromBoxed (x : Nat)
  | dropBox (x : Nat)

/-- The vector of a call of `retain` or `dedup`, and whether the function given may panic. -/
def XCmd.scans : XCmd α → Option (Nat × Prop)
  | .retain x f => some (x, ∃ k a, f k a = none)
  | .dedupBy x same => some (x, ∃ k a b, same k a b = none)
  | .dedupByKey x key => some (x, ∃ k a, key k a = none)
  | _ => none

/-- How `retain` and `dedup` may end when they have dropped `d`: they return if no destructor panicked; they
panic if the last destructor did, or the function given (`P`). -/
inductive ScanEnds (dp : α → Prop) (P : Prop) : Event α → List α → Prop
  | ret {d} : (∀ a ∈ d, ¬ dp a) → ScanEnds dp P (.ret .unit) d
  | test {d} : (∀ a ∈ d, ¬ dp a) → P → ScanEnds dp P .panic d
  | boom {d a} : (∀ y ∈ d, ¬ dp y) → dp a → ScanEnds dp P .panic (d ++ [a])

/-- What a call may do: what the client sees, the state afterwards, the elements made by callbacks, dropped,
and neither dropped nor given back nor stored. -/
inductive XStep (cl : CloneRel α) (dp : α → Prop) :
    XCmd α → Event α → Objs α → Objs α → List α → List α → List α → Prop
  | call {cmd ev S V made dropped leaked} : StepP cl dp cmd ev S.vecs V made dropped leaked →
      XStep cl dp (.call cmd) ev S ⟨V, S.objs⟩ made dropped leaked
  | scan {cmd x P ev S l l' d lost} : cmd.scans = some (x, P) → S.vecs[x]? = some (some l) →
      l'.Sublist l → d.Sublist l → (l' ++ d ++ lost).Perm l → ScanEnds dp P ev d →
      XStep cl dp cmd ev S ⟨S.vecs.set x (some l'), S.objs⟩ [] d lost
  | intoIter {x l S} : S.vecs[x]? = some (some l) →
      XStep cl dp (.intoIter x) (.ret .unit) S ⟨S.vecs.set x none, (x, .iter l) :: S.objs⟩ [] [] []
  | next {x m S O} : S.objs.Perm ((x, .iter m) :: O) →
      XStep cl dp (.next x) (.ret (.opt m.head?)) S ⟨S.vecs, (x, .iter m.tail) :: O⟩ [] [] []
  | nextBack {x m S O} : S.objs.Perm ((x, .iter m) :: O) →
      XStep cl dp (.nextBack x) (.ret (.opt m.getLast?)) S ⟨S.vecs, (x, .iter m.dropLast) :: O⟩ [] [] []
  | rest {x m S} : (x, .iter m) ∈ S.objs → XStep cl dp (.rest x) (.ret (.list m)) S S [] [] []
  | dropIter {x m S O} : S.objs.Perm ((x, .iter m) :: O) →
      XStep cl dp (.dropIter x) (.ret .unit) S ⟨S.vecs, O⟩ [] m []
  | dropIterBoom {x ys a zs S O} : S.objs.Perm ((x, .iter (ys ++ a :: zs)) :: O) → dp a →
      XStep cl dp (.dropIter x) .panic S ⟨S.vecs, O⟩ [] (ys ++ [a]) zs
  | intoBoxed {x l S} : S.vecs[x]? = some (some l) →
      XStep cl dp (.intoBoxed x) (.ret .unit) S ⟨S.vecs.set x none, (x, .box l) :: S.objs⟩ [] [] []
  | intoBoxedRefused {x l S} : S.vecs[x]? = some (some l) →
      XStep cl dp (.intoBoxed x) .refuse S ⟨S.vecs.set x none, S.objs⟩ [] l []
  | readBox {x m S} : (x, .box m) ∈ S.objs → XStep cl dp (.readBox x) (.ret (.list m)) S S [] [] []
  | fromBoxed {x m S O} : S.vecs[x]? = some none → S.objs.Perm ((x, .box m) :: O) →
      XStep cl dp (.fromBoxed x) (.ret .unit) S ⟨S.vecs.set x (some m), O⟩ [] [] []
  | dropBox {x m S O} : S.objs.Perm ((x, .box m) :: O) →
      XStep cl dp (.dropBox x) (.ret .unit) S ⟨S.vecs, O⟩ [] m []
  | dropBoxBoom {x m S O} : S.objs.Perm ((x, .box m) :: O) → (∃ a ∈ m, dp a) →
      XStep cl dp (.dropBox x) .panic S ⟨S.vecs, O⟩ [] m []

/-- A history of calls as seen by the client. -/
abbrev XHistory (α : Type) := List (XCmd α × Event α)

/-- Running a history from the empty state. -/
inductive XRuns (cl : CloneRel α) (dp : α → Prop) :
    XHistory α → Objs α → List α → List α → List α → Prop
  | start : XRuns cl dp [] ⟨[], []⟩ [] [] []
  | step {h S made dropped leaked cmd ev S' made' dropped' leaked'} : XRuns cl dp h S made dropped leaked →
      XStep cl dp cmd ev S S' made' dropped' leaked' →
      XRuns cl dp (h ++ [(cmd, ev)]) S' (made ++ made') (dropped ++ dropped') (leaked ++ leaked')

/-- Elements the client hands over by value in a call. -/
def XCmd.given : XCmd α → List α
  | .call cmd => cmd.given
  | _ => []

/-- Elements the client gets back by value from a call. -/
def xtaken (cmd : XCmd α) (ev : Event α) : List α :=
  match cmd, ev.out with
  | .call cmd, _ => taken cmd ev
  | .next _, some (.opt (some a)) => [a]
  | .nextBack _, some (.opt (some a)) => [a]
  | _, _ => []

/-- All elements handed over in a history. -/
def XHistory.given (h : XHistory α) : List α := h.flatMap fun e => e.1.given
/-- All elements given back in a history. -/
def XHistory.taken (h : XHistory α) : List α := h.flatMap fun e => xtaken e.1 e.2
/-- All elements in vectors, iterators and boxes. -/
def Objs.contents (S : Objs α) : List α := Lists.contents S.vecs ++ S.objs.flatMap fun o => o.2.elems

end Lokky.Spec
