import Verif.Model.ArcChests
import Verif.Model.HandleClones

/-!
# Client programs that clone `Arc`s kept in vectors

Not code of the crate: threads that keep `Arc<T>` handles in vectors, as in Verif/Model/ArcChests.lean, and clone those vectors, extend
them from slices and resize them, as in Verif/Model/HandleClones.lean (vec.rs 342-350, 484-489, 691-700, 929-935).

Simplification: the clones that one call of a vector makes follow each other without steps of other threads in between.
-/

namespace Lokky
variable {α : Type}

/-- `Arc` handles (arc.rs 28): all can be cloned (arc.rs 466-497). The clone runs on a thread of its own; `clone` returns the name of the
new handle, or panics where too many handles exist (arc.rs 491-493). -/
def arcClonables (mx : Nat) : Clonables (ArcSys α) where
  toThings := arcThings mx
  clonable s x := isThere s.hands x
  clone x := fun s => match s.hands[x]? with
    | some (some p) =>
      match Arc.step mx {} s.threads.length (.clone x p) { s with threads := s.threads ++ [some (.clone x p)] } with
      | .ok _ s' => if s'.hands.length = s.hands.length then .panic s' else .ok s.hands.length s'
      | .panic s' => .panic s'
      | .abort => .abort
      | .ub u => .ub u
    | _ => .ub .badFree

end Lokky
