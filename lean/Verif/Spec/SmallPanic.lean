import Verif.Spec.Small
import Verif.Spec.ListsPanic

/-!
# `SmallVec` programs on lists when destructors may panic

The specification of `Verif/Spec/Small.lean` with the outcomes added that a panicking destructor may cause. `dp a`:
the destructor of `a` panics.
-/

namespace Lokky.Spec
variable {α : Type}

/-- A call on the list `l` when destructors may panic: as before, or, if the destructor of an element to be dropped
panics, the call panics after it did its work. `clear` stops at the first such element; the elements behind it (last
list) are never dropped. -/
inductive SEditP (cl : CloneRel α) (dp : α → Prop) :
    Op α → Event α → List α → List α → List α → List α → List α → Prop
  | edit {o ev l l' made dropped} : EditP cl dp o ev l l' made dropped → SEditP cl dp o ev l l' made dropped []
  | late {o l l' made dropped} : Late cl o l l' made dropped → SEditP cl dp o .refuse l l' made dropped []
  | clear (ys a zs) : dp a → (∀ y ∈ ys, ¬ dp y) →
      SEditP cl dp .clear .panic (ys ++ a :: zs) [] [] (ys ++ [a]) zs

/-- The same for all calls of a client program. Elements in the last list are neither dropped nor given back nor
stored. -/
inductive SStepP (cl : CloneRel α) (dp : α → Prop) :
    SCmd α → Event α → Lists α → Lists α → List α → List α → List α → Prop
  | step {cmd ev L L' made dropped} : SStep cl cmd ev L L' made dropped → SStepP cl dp cmd ev L L' made dropped []
  | on (x o ev l l' made dropped leaked L) : L[x]? = some (some l) → SEditP cl dp o ev l l' made dropped leaked →
      SStepP cl dp (.on x o) ev L (L.set x (some l')) made dropped leaked
  | drop (x ys a zs L) : L[x]? = some (some (ys ++ a :: zs)) → dp a → (∀ y ∈ ys, ¬ dp y) →
      SStepP cl dp (.drop x) .panic L (L.set x none) [] (ys ++ [a]) zs

/-- Running a history on lists from the empty state. -/
inductive SRunsP (cl : CloneRel α) (dp : α → Prop) : SHistory α → Lists α → List α → List α → List α → Prop
  | start : SRunsP cl dp [] [] [] [] []
  | step {h L made dropped leaked cmd ev L' made' dropped' leaked'} : SRunsP cl dp h L made dropped leaked →
      SStepP cl dp cmd ev L L' made' dropped' leaked' →
      SRunsP cl dp (h ++ [(cmd, ev)]) L' (made ++ made') (dropped ++ dropped') (leaked ++ leaked')

end Lokky.Spec
