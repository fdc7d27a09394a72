import Verif.Spec.Lists

/-!
# Vector programs on lists when destructors may panic

The specification of `Verif/Spec/Lists.lean` with the outcomes added that a panicking destructor may cause. `dp a`:
the destructor of `a` panics. `clear` is left out (C21).
-/

namespace Lokky.Spec
variable {α : Type}

/-- A call on the list `l` when destructors may panic: as before, or, if the destructor of an element to be dropped
panics, the call panics after it did its work and dropped everything it had to. -/
inductive EditP (cl : CloneRel α) (dp : α → Prop) : Op α → Event α → List α → List α → List α → List α → Prop
  | edit {o ev l l' made dropped} : Edit cl o ev l l' made dropped → EditP cl dp o ev l l' made dropped
  | truncate (k l) : (∃ a ∈ l.drop k, dp a) →
      EditP cl dp (.truncate k) .panic l (l.take k) [] (l.drop k)
  | resizeDown (k a l) : k ≤ l.length → (∃ x ∈ l.drop k ++ [a], dp x) →
      EditP cl dp (.resize k a) .panic l (l.take k) [] (l.drop k ++ [a])
  | resizeWithDown (k f l) : k ≤ l.length → (∃ x ∈ l.drop k, dp x) →
      EditP cl dp (.resizeWith k f) .panic l (l.take k) [] (l.drop k)
  | set (i a l) (h : i < l.length) : dp l[i] → EditP cl dp (.set i a) .panic l (l.set i a) [] [l[i]]

/-- The same for all calls of a client program. Elements in the last list are neither dropped nor given back nor
stored: dropping a vector stops at the first destructor that panics. -/
inductive StepP (cl : CloneRel α) (dp : α → Prop) :
    Cmd α → Event α → Lists α → Lists α → List α → List α → List α → Prop
  | step {cmd ev L L' made dropped} : Step cl cmd ev L L' made dropped → StepP cl dp cmd ev L L' made dropped []
  | on (x o ev l l' made dropped L) : L[x]? = some (some l) → EditP cl dp o ev l l' made dropped →
      StepP cl dp (.on x o) ev L (L.set x (some l')) made dropped []
  | drop (x ys a zs L) : L[x]? = some (some (ys ++ a :: zs)) → dp a → (∀ y ∈ ys, ¬ dp y) →
      StepP cl dp (.drop x) .panic L (L.set x none) [] (ys ++ [a]) zs

/-- Running a history on lists from the empty state. -/
inductive RunsP (cl : CloneRel α) (dp : α → Prop) : History α → Lists α → List α → List α → List α → Prop
  | start : RunsP cl dp [] [] [] [] []
  | step {h L made dropped leaked cmd ev L' made' dropped' leaked'} : RunsP cl dp h L made dropped leaked →
      StepP cl dp cmd ev L L' made' dropped' leaked' →
      RunsP cl dp (h ++ [(cmd, ev)]) L' (made ++ made') (dropped ++ dropped') (leaked ++ leaked')

end Lokky.Spec
