import Verif.Spec.Lists

/-!
# Specification of `SmallVec` programs on mathematical lists

As Verif/Spec/Lists.lean, with the calls only `SmallVec` has. The inline size is part of the
constructors and has no influence on what the calls mean. Since a `SmallVec` may have to move to the
heap in the middle of a call, a few calls can be refused memory later than the same calls of `Vec`.
-/

namespace Lokky.Spec
variable {α : Type}

/-- Calls of a client program. `n` is the inline size of the vector made. -/
inductive SCmd (α : Type) where
  | new (n : Nat)
  | withCapacity (n k : Nat)
  | fromArray (n : Nat) (l : List α)
  | fromIter (n : Nat) (it : Items α)
  | clone (x : Nat)
  | on (x : Nat) (o : Op α)
  | append (x y : Nat)
  | drop (x : Nat)
  | moveToHeap (x : Nat)
  /-- `vecs[x].split_off_into::<n>(at)` -/
  | splitOff (x n at_ : Nat)
  /-- `SmallVec::<n>::from(vecs[x].into_vec())` -/
  | viaVec (x n : Nat)

/-- Refusals in the middle of a call: `Late cl o l l' made dropped`. -/
inductive Late (cl : CloneRel α) : Op α → List α → List α → List α → List α → Prop
  | insertBad (i a l) : l.length < i → Late cl (.insert i a) l l [] [a]
  | extendFromSlice (pre a post ys b l) : Clones cl pre ys → cl a (some b) →
      Late cl (.extendFromSlice (pre ++ a :: post)) l (l ++ ys) (ys ++ [b]) [b]
  | resizeDown (k a l) : k ≤ l.length → Late cl (.resize k a) l l [] [a]

/-- What the calls mean on lists. -/
inductive SStep (cl : CloneRel α) :
    SCmd α → Event α → Lists α → Lists α → List α → List α → Prop
  | new (n L) : SStep cl (.new n) (.ret .unit) L (L ++ [some []]) [] []
  | withCapacity (n k L) : SStep cl (.withCapacity n k) (.ret .unit) L (L ++ [some []]) [] []
  | withCapacityRefused (n k L) : SStep cl (.withCapacity n k) .refuse L L [] []
  | fromArray (n l L) : SStep cl (.fromArray n l) (.ret .unit) L (L ++ [some l]) [] []
  | fromArrayRefused (n l L) : SStep cl (.fromArray n l) .refuse L L [] l
  | fromIter (n it L) : it.boom = false →
      SStep cl (.fromIter n it) (.ret .unit) L (L ++ [some it.items]) [] []
  | fromIterPanic (n it d L) : it.boom = true → d.Perm it.items →
      SStep cl (.fromIter n it) .panic L L [] d
  | fromIterRefused (n it d L) : d.Perm it.items → SStep cl (.fromIter n it) .refuse L L [] d
  | clone (x l ys L) : L[x]? = some (some l) → Clones cl l ys →
      SStep cl (.clone x) (.ret .unit) L (L ++ [some ys]) ys []
  | cloneRefused (x L) : SStep cl (.clone x) .refuse L L [] []
  | cloneRefusedLate (x pre a post ys b L) : L[x]? = some (some (pre ++ a :: post)) →
      Clones cl pre ys → cl a (some b) → SStep cl (.clone x) .refuse L L (ys ++ [b]) (b :: ys)
  | clonePanic (x pre a post ys L) : L[x]? = some (some (pre ++ a :: post)) → Clones cl pre ys →
      cl a none → SStep cl (.clone x) .panic L L ys ys
  | on (x o ev l l' made dropped L) : L[x]? = some (some l) → Edit cl o ev l l' made dropped →
      SStep cl (.on x o) ev L (L.set x (some l')) made dropped
  | onLate (x o l l' made dropped L) : L[x]? = some (some l) → Late cl o l l' made dropped →
      SStep cl (.on x o) .refuse L (L.set x (some l')) made dropped
  | append (x y l l' L) : x ≠ y → L[x]? = some (some l) → L[y]? = some (some l') →
      SStep cl (.append x y) (.ret .unit) L ((L.set x (some (l ++ l'))).set y (some [])) [] []
  | appendRefused (x y L) : SStep cl (.append x y) .refuse L L [] []
  | drop (x l L) : L[x]? = some (some l) → SStep cl (.drop x) (.ret .unit) L (L.set x none) [] l
  | moveToHeap (x L) : SStep cl (.moveToHeap x) (.ret .unit) L L [] []
  | moveToHeapRefused (x L) : SStep cl (.moveToHeap x) .refuse L L [] []
  | splitOff (x n k l L) : L[x]? = some (some l) → k ≤ l.length →
      SStep cl (.splitOff x n k) (.ret .unit) L (L.set x (some (l.take k)) ++ [some (l.drop k)]) [] []
  | splitOffBad (x n k l L) : L[x]? = some (some l) → l.length < k →
      SStep cl (.splitOff x n k) .panic L L [] []
  | splitOffRefused (x n k L) : SStep cl (.splitOff x n k) .refuse L L [] []
  | viaVec (x n l L) : L[x]? = some (some l) →
      SStep cl (.viaVec x n) (.ret .unit) L (L.set x none ++ [some l]) [] []
  | viaVecRefused (x n l L) : L[x]? = some (some l) →
      SStep cl (.viaVec x n) .refuse L (L.set x none) [] l

/-- A history of calls as seen by the client. -/
abbrev SHistory (α : Type) := List (SCmd α × Event α)

/-- Running a history on lists from the empty state. -/
inductive SRuns (cl : CloneRel α) : SHistory α → Lists α → List α → List α → Prop
  | start : SRuns cl [] [] [] []
  | step {h L made dropped cmd ev L' made' dropped'} : SRuns cl h L made dropped →
      SStep cl cmd ev L L' made' dropped' →
      SRuns cl (h ++ [(cmd, ev)]) L' (made ++ made') (dropped ++ dropped')

/-- Elements the client hands over by value in a call. -/
def SCmd.given : SCmd α → List α
  | .fromArray _ l => l
  | .fromIter _ it => it.items
  | .on _ o => o.given
  | _ => []

/-- Elements the client gets back by value from a call. -/
def SCmd.taken : SCmd α → Event α → List α
  | .on x o, ev => Spec.taken (.on x o) ev
  | _, _ => []

/-- All elements handed over in a history. -/
def SHistory.given (h : SHistory α) : List α := h.flatMap fun e => e.1.given
/-- All elements given back in a history. -/
def SHistory.taken (h : SHistory α) : List α := h.flatMap fun e => e.1.taken e.2

end Lokky.Spec
