import Verif.Model.SmallVec
import Verif.Model.VecCmp

/-!
# Comparison and hashing of small vectors

All of them go through `as_slice` and the implementations for slices in `core`, as for `Vec`. The
two vectors compared have the same inline size `N` by their type; the model does not ask for it.
-/

namespace Lokky
variable {α H : Type}

namespace Small
variable (c : Cfg α)

/-- Two small vectors behind shared references (possibly the same one): both contents. -/
def bothSlices : M (St (SmallH α × SmallH α) α) (List α × List α) := do
  let l ← onPart Prod.fst (fun v p => (v, p.2)) (asSlice c)
  let l' ← onPart Prod.snd (fun v p => (p.1, v)) (asSlice c)
  pure (l, l')

/-- `eq` (small_vec.rs 880-884). -/
def eq (eqT : α → α → Bool) : M (St (SmallH α × SmallH α) α) Bool := do
  let (l, l') ← bothSlices c
  pure (sliceEq eqT l l')

/-- `partial_cmp` (small_vec.rs 888-892) and `cmp` (894-898). -/
def cmp (cmpT : α → α → Option Ordering) : M (St (SmallH α × SmallH α) α) (Option Ordering) := do
  let (l, l') ← bothSlices c
  pure (sliceCmp cmpT l l')

/-- `hash` (small_vec.rs 914-918). -/
def hash (hs : Hasher α H) (h : H) : M (SSt α) H := do
  pure (sliceHash hs h (← asSlice c))

end Small
end Lokky
