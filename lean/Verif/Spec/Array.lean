import Verif.Model.Array

/-!
# Specification of arrays

An array is a list of slots, `none` = not initialised.
-/

namespace Lokky.Spec
variable {α : Type}

/-- What a call may do to an array with slots `ss`: its answer (`none` = it panics), the slots afterwards
and what it drops. `boom` tells which elements have a destructor that panics. -/
inductive ArrStep (boom : α → Bool) : ArrCmd α → List (Option α) → Option (ArrRet α) →
    List (Option α) → List α → Prop
  | put {i x ss} : i < ss.length → ArrStep boom (.put i x) ss (some .unit) (ss.set i (some x)) []
  | get {i x ss} : ss[i]? = some (some x) → ArrStep boom (.get i) ss (some (.val x)) ss []
  | getOut {i ss} : ss.length ≤ i → ArrStep boom (.get i) ss none ss []
  | fill {i x ss} : ss[i]? = some none →
      ArrStep boom (.assign i x) ss (some .unit) (ss.set i (some x)) []
  | assign {i x y ss} : ss[i]? = some (some y) → boom y = false →
      ArrStep boom (.assign i x) ss (some .unit) (ss.set i (some x)) [y]
  | assignBoom {i x y ss} : ss[i]? = some (some y) → boom y = true →
      ArrStep boom (.assign i x) ss none (ss.set i (some x)) [y]
  | assignOut {i x ss} : ss.length ≤ i → ArrStep boom (.assign i x) ss none ss [x]
  | realloc {n ss} : ArrStep boom (.realloc n) ss (some .unit)
      (ss.take n ++ List.replicate (n - ss.length) none) []
  | refused {n ss} : ArrStep boom (.realloc n) ss (some (.err .allocError)) ss []

/-- What a program may do. -/
inductive ArrSteps (boom : α → Bool) : List (ArrCmd α) → List (Option α) →
    List (Option (ArrRet α)) → List (Option α) → List α → Prop
  | nil {ss} : ArrSteps boom [] ss [] ss []
  | cons {k ks ss r ss1 d rs ss2 e} : ArrStep boom k ss r ss1 d → ArrSteps boom ks ss1 rs ss2 e →
      ArrSteps boom (k :: ks) ss (r :: rs) ss2 (d ++ e)

end Lokky.Spec
