import Verif.Model.Vec

/-!
# Comparison and hashing of vectors

All of them go through `as_slice` and the implementations for slices in `core`, which are modelled
here from their documentation.
-/

namespace Lokky
variable {α H : Type}

/-- `==` of slices (core): different lengths are different, otherwise element by element. -/
def sliceEq (eq : α → α → Bool) (l l' : List α) : Bool :=
  if l.length ≠ l'.length then false else (l.zip l').all fun p => eq p.1 p.2

/-- The loop of slice comparison (core): the first pair that is not `Equal` decides. -/
def firstDiff (cmp : α → α → Option Ordering) : List (α × α) → Option (Option Ordering)
  | [] => none
  | (a, b) :: r =>
    match cmp a b with
    | some .eq => firstDiff cmp r
    | o => some o

/-- `partial_cmp` of slices (core): over the common length, then by length. With a `cmp` that never
returns `none` this is `cmp` of slices. -/
def sliceCmp (cmp : α → α → Option Ordering) (l l' : List α) : Option Ordering :=
  match firstDiff cmp (l.zip l') with
  | some o => o
  | none => some (compare l.length l'.length)

/-- A hasher fed by `Hash::hash`. -/
structure Hasher (α H : Type) where
  len : H → Nat → H
  elem : H → α → H

/-- `hash` of slices (core): the length, then every element. -/
def sliceHash (hs : Hasher α H) (h : H) (l : List α) : H := l.foldl hs.elem (hs.len h l.length)

namespace Vec
variable (c : Cfg α)

/-- Two vectors behind shared references (possibly the same one): both contents. -/
def bothSlices : M (St (VecH × VecH) α) (List α × List α) := do
  let l ← onPart Prod.fst (fun v p => (v, p.2)) (asSlice c)
  let l' ← onPart Prod.snd (fun v p => (p.1, v)) (asSlice c)
  pure (l, l')

/-- `eq` (vec.rs 951-955). -/
def eq (eqT : α → α → Bool) : M (St (VecH × VecH) α) Bool := do
  let (l, l') ← bothSlices c
  pure (sliceEq eqT l l')

/-- `partial_cmp` (vec.rs 959-963) and `cmp` (965-969). -/
def cmp (cmpT : α → α → Option Ordering) : M (St (VecH × VecH) α) (Option Ordering) := do
  let (l, l') ← bothSlices c
  pure (sliceCmp cmpT l l')

/-- `hash` (vec.rs 971-975). -/
def hash (hs : Hasher α H) (h : H) : M (VSt α) H := do
  pure (sliceHash hs h (← asSlice c))

end Vec
end Lokky
