/-!
# Specification of retain and dedup

A predicate may keep state and may panic, so it is given as `f k a`: the answer of its `k`-th call,
made on element `a`; `none` means that this call panics.
-/

namespace Lokky.Spec
variable {α K : Type}

/-- The elements a filter gets to see, with its answers; it ends at a panic. -/
def answers (f : Nat → α → Option Bool) : Nat → List α → List (α × Bool)
  | _, [] => []
  | k, a :: l => match f k a with
    | none => []
    | some b => (a, b) :: answers f (k + 1) l

/-- The elements answered with `true`. -/
def accepted (r : List (α × Bool)) : List α := (r.filter (·.2)).map (·.1)

/-- The elements answered with `false`. -/
def rejected (r : List (α × Bool)) : List α := (r.filter (!·.2)).map (·.1)

/-- Comparing each element with the last kept one `p`; `true` = kept (the test said: different). -/
def runs (same : Nat → α → α → Option Bool) : Nat → α → List α → List (α × Bool)
  | _, _, [] => []
  | k, p, a :: l => match same k a p with
    | none => []
    | some true => (a, false) :: runs same (k + 1) p l
    | some false => (a, true) :: runs same (k + 1) a l

/-- Comparing the key of each element with the key `p` of the last kept one. -/
def keyRuns [DecidableEq K] (key : Nat → α → Option K) : Nat → K → List α → List (α × Bool)
  | _, _, [] => []
  | k, p, a :: l => match key k a with
    | none => []
    | some q =>
      if p = q then (a, false) :: keyRuns key (k + 1) p l
      else (a, true) :: keyRuns key (k + 1) q l

end Lokky.Spec
