/-!
# What client code may do with a `&mut [T]`, on lists

Written without reference to the model.
-/

namespace Lokky.Spec
variable {α β : Type}

/-- Client code that has borrowed a slice: it may ask for the length, look at elements, swap them, replace
them, drop values it got hold of, panic, and return. Indices are checked, as everywhere in safe code. Sorting,
reversing, rotating, `iter_mut` and so on are such programs. -/
inductive SliceProg (α β : Type) where
  | ret (b : β)
  | panic
  | len (k : Nat → SliceProg α β)
  | look (i : Nat) (k : α → SliceProg α β)
  | swap (i j : Nat) (k : SliceProg α β)
  | replace (i : Nat) (a : α) (k : α → SliceProg α β)
  | drop (a : α) (k : SliceProg α β)

/-- How the code ends: it returns, unwinds, or aborts the process by a second panic. -/
inductive SliceEnd (β : Type) where
  | ret (b : β)
  | panic
  | abort
deriving DecidableEq

/-- What the code does to a list: how it ends, the list afterwards, and what it drops. `dp a`: the destructor of
`a` panics. -/
def SliceProg.run (dp : α → Bool) : SliceProg α β → List α → SliceEnd β × List α × List α
  | .ret b, m => (.ret b, m, [])
  | .panic, m => (.panic, m, [])
  | .len k, m => (k m.length).run dp m
  | .look i k, m =>
    match m[i]? with
    | some a => (k a).run dp m
    | none => (.panic, m, [])
  | .swap i j k, m =>
    match m[i]?, m[j]? with
    | some a, some b => k.run dp ((m.set i b).set j a)
    | _, _ => (.panic, m, [])
  | .replace i a k, m =>
    match m[i]? with
    | some b => (k b).run dp (m.set i a)
    | none => (if dp a then .abort else .panic, m, [a])
  | .drop a k, m =>
    if dp a then (.panic, m, [a])
    else
      let r := k.run dp m
      (r.1, r.2.1, a :: r.2.2)

/-- The code moves elements around but puts none in and takes none out. -/
def SliceProg.Moves : SliceProg α β → Prop
  | .ret _ => True
  | .panic => True
  | .len k => ∀ n, (k n).Moves
  | .look _ k => ∀ a, (k a).Moves
  | .swap _ _ k => k.Moves
  | .replace _ _ _ => False
  | .drop _ _ => False

/-- The ranges a vector can be indexed with: `a..b`, `..b`, `a..`, `..`, `a..=b`, `..=b`. -/
inductive Range where
  | range (a b : Nat)
  | to (b : Nat)
  | from (a : Nat)
  | full
  | incl (a b : Nat)
  | toIncl (b : Nat)
deriving DecidableEq

/-- First index of the range. -/
def Range.lo : Range → Nat
  | .range a _ => a
  | .to _ => 0
  | .from a => a
  | .full => 0
  | .incl a _ => a
  | .toIncl _ => 0

/-- End (exclusive) of the range, for a slice of length `n`. -/
def Range.hi (n : Nat) : Range → Nat
  | .range _ b => b
  | .to b => b
  | .from _ => n
  | .full => n
  | .incl _ b => b + 1
  | .toIncl b => b + 1

/-- The range lies within a slice of length `n`. -/
def Range.Within (r : Range) (n : Nat) : Prop := r.lo ≤ r.hi n ∧ r.hi n ≤ n

instance (r : Range) (n : Nat) : Decidable (r.Within n) := inferInstanceAs (Decidable (_ ∧ _))

/-- The same code on the part of the list that the range selects. -/
def SliceProg.runIn (dp : α → Bool) (r : Range) (p : SliceProg α β) (l : List α) :
    SliceEnd β × List α × List α :=
  let res := p.run dp ((l.take (r.hi l.length)).drop r.lo)
  (res.1, l.take r.lo ++ res.2.1 ++ l.drop (r.hi l.length), res.2.2)

end Lokky.Spec
