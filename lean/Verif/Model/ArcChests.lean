import Verif.Model.Arc
import Verif.Model.Chests

/-!
# Client programs with `Arc`s in containers

Not code of the crate: threads that keep `Arc<T>` handles in vectors, small vectors, by-value iterators and boxed slices
(`Vec<Arc<T>>` and so on). The elements of the containers are the names of handles (Verif/Model/Arc.lean). When code of a container
drops an element (vec.rs 439-460, 977-990, 1112-1131, small_vec.rs 154-162, 725-731 and so on), `drop` of the handle begins
(arc.rs 499-541), and its steps interleave with those of other threads.

Simplifications. Each `drop` of an element has a thread of its own, which allows more interleavings than there are. Calls that
borrow a handle (`clone`, `downgrade`, reading, counting) are one step: their effect is one atomic operation, and the borrow keeps the
handle in its place. `get_mut` and `make_mut` are called on handles that the client has taken out of containers, as they give handles
new names here. Containers are used by one thread at a time, as `&mut` demands.
-/

namespace Lokky
variable {α : Type}

/-- No call that borrows a handle is under way. -/
def ArcSys.Unlent (s : ArcSys α) : Prop := ∀ h, s.Unborrowed h

/-- `k` steps of thread `t` (arc.rs 259-280, 377-396, 466-497), none of which loses a value. -/
inductive ArcRuns (mx t : Nat) (s : ArcSys α) : Nat → ArcSys α → Prop
  | refl : ArcRuns mx t s 0 s
  | tail {k : Nat} {s' s'' : ArcSys α} {op : ArcOp α} (ch : ArcChoice α) : ArcRuns mx t s k s' →
      s'.threads[t]? = some (some op) → Arc.step mx ch t op s' = .ok () s'' → ¬ ArcLoses ch op → ArcRuns mx t s (k + 1) s''

/-- What threads do to handles: a step of `ArcStep` that does not begin to borrow, or a whole call that borrows
(arc.rs 259-280, 377-396, 466-497). -/
inductive ArcUse (mx : Nat) : ArcSys α → ArcSys α → Prop
  | step {s s' : ArcSys α} : ArcStep mx True s s' → s'.Unlent → ArcUse mx s s'
  | call (t : Nat) (cmd : ArcCmd α) {s s' : ArcSys α} {h p k : Nat} {f : Nat → ArcOp α} : s.threads[t]? = some none →
      cmd.borrows = some (h, f) → s.hands[h]? = some (some p) → k ≤ 2 →
      ArcRuns mx t { s with threads := s.threads.set t (some (f p)) } k s' → s'.Unlent → ArcUse mx s s'

/-- `Arc` handles (arc.rs 28) as things. The destructor begins on a thread of its own (arc.rs 499-505). -/
def arcThings (mx : Nat) : Things (ArcSys α) where
  alive s x := isThere s.hands x
  made s := s.hands.length
  use := ArcUse mx
  drop x := fun s => match s.hands[x]? with
    | some (some p) => .ok () { s with hands := s.hands.set x none, threads := s.threads ++ [some (.drop0 p)] }
    | _ => .ub .badFree

end Lokky
