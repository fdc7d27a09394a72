/-!
# What a client expects of boxes

A box is a place of its own that has a value. Nothing here refers to the model.
-/

namespace Lokky.Spec
variable {α : Type}

/-- Calls on boxes. Boxes are numbered in the order in which they came to be; `m` names the marker, if any. `scope` is the client
entering or leaving a scope: `f` is the allocator that is then chosen for each marker. -/
inductive BoxCmd (α : Type) where
  | new (x : α) (m : Option Nat)
  | read (i : Nat)
  | assign (i : Nat) (x : α)
  | eq (i j : Nat) (e : α → α → Bool)
  | intoInner (i : Nat)
  | drop (i : Nat)
  | scope (f : Option Nat → Nat)

/-- What a call returns. -/
inductive BoxOut (α : Type) where
  | unit
  | val (a : α)
  | bool (b : Bool)
deriving DecidableEq

/-- The values of the boxes; `none` for those that are gone. -/
abbrev Boxes (α : Type) := List (Option α)

/-- What a call does to the values, and which values it drops. `none` is a panic. -/
inductive BoxStep : BoxCmd α → Option (BoxOut α) → Boxes α → Boxes α → List α → Prop
  | new {S} (x : α) (m : Option Nat) : BoxStep (.new x m) (some .unit) S (S ++ [some x]) []
  /-- memory is refused -/
  | refused {S} (x : α) (m : Option Nat) : BoxStep (.new x m) none S S [x]
  | read {S : Boxes α} {i : Nat} {a : α} : S[i]? = some (some a) → BoxStep (.read i) (some (.val a)) S S []
  | assign {S : Boxes α} {i : Nat} {a : α} (x : α) : S[i]? = some (some a) →
      BoxStep (.assign i x) (some .unit) S (S.set i (some x)) [a]
  | eq {S : Boxes α} {i j : Nat} {a b : α} (e : α → α → Bool) : S[i]? = some (some a) → S[j]? = some (some b) →
      BoxStep (.eq i j e) (some (.bool (e a b))) S S []
  | intoInner {S : Boxes α} {i : Nat} {a : α} : S[i]? = some (some a) →
      BoxStep (.intoInner i) (some (.val a)) S (S.set i none) []
  | drop {S : Boxes α} {i : Nat} {a : α} : S[i]? = some (some a) → BoxStep (.drop i) (some .unit) S (S.set i none) [a]
  | scope {S} (f : Option Nat → Nat) : BoxStep (.scope f) (some .unit) S S []

/-- What a sequence of calls does, starting without boxes. -/
inductive BoxRun : List (BoxCmd α × Option (BoxOut α)) → Boxes α → List α → Prop
  | nil : BoxRun [] [] []
  | snoc {h : List (BoxCmd α × Option (BoxOut α))} {S S' : Boxes α} {d d' : List α} {cmd : BoxCmd α} {o : Option (BoxOut α)} :
      BoxRun h S d → BoxStep cmd o S S' d' → BoxRun (h ++ [(cmd, o)]) S' (d ++ d')

/-- The values handed over to boxes. -/
def BoxCmd.given : BoxCmd α → List α
  | .new x _ => [x]
  | .assign _ x => [x]
  | _ => []

/-- The value a call hands back. -/
def BoxCmd.taken : BoxCmd α → Option (BoxOut α) → List α
  | .intoInner _, some (.val a) => [a]
  | _, _ => []

end Lokky.Spec
