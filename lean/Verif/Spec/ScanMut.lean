/-!
# Specification of dedup with tests that change the elements

`same k a p` is the `k`-th call of the test, on the tested element `a` and the last kept element
`p`. It answers whether they are the same, and leaves `a'` and `p'` in place of the two.
-/

namespace Lokky.Spec
variable {α κ : Type}

/-- What `dedup_by` is to leave of `p :: l`: the elements kept, and the elements dropped. A call
changes the kept element and the tested one where they are. -/
def merged (same : Nat → α → α → Bool × α × α) : Nat → α → List α → List α × List α
  | _, p, [] => ([p], [])
  | k, p, a :: l => match same k a p with
    | (true, a', p') => ((merged same (k + 1) p' l).1, a' :: (merged same (k + 1) p' l).2)
    | (false, a', p') => (p' :: (merged same (k + 1) a' l).1, (merged same (k + 1) a' l).2)

/-- The same when the calls change a copy `p` of the last kept element, which is not among the
elements kept. -/
def mergedAside (same : Nat → α → α → Bool × α × α) : Nat → α → List α → List α × List α
  | _, _, [] => ([], [])
  | k, p, a :: l => match same k a p with
    | (true, a', p') => ((mergedAside same (k + 1) p' l).1, a' :: (mergedAside same (k + 1) p' l).2)
    | (false, a', _) => (a' :: (mergedAside same (k + 1) a' l).1, (mergedAside same (k + 1) a' l).2)

/-- The same when the calls change the first element where it is, and a copy of the last kept
element from then on. -/
def mergedFirst (same : Nat → α → α → Bool × α × α) : Nat → α → List α → List α × List α
  | _, p, [] => ([p], [])
  | k, p, a :: l => match same k a p with
    | (true, a', p') => ((mergedFirst same (k + 1) p' l).1, a' :: (mergedFirst same (k + 1) p' l).2)
    | (false, a', p') =>
      (p' :: a' :: (mergedAside same (k + 1) a' l).1, (mergedAside same (k + 1) a' l).2)

/-- What `dedup_by_key` is to leave of the elements `l` after one whose key is `p`, when `key k a`
gives the key of `a` and leaves `a'` in its place. -/
def keyMerged [DecidableEq κ] (key : Nat → α → κ × α) : Nat → κ → List α → List α × List α
  | _, _, [] => ([], [])
  | k, p, a :: l =>
    if p = (key k a).1 then
      ((keyMerged key (k + 1) p l).1, (key k a).2 :: (keyMerged key (k + 1) p l).2)
    else
      ((key k a).2 :: (keyMerged key (k + 1) (key k a).1 l).1, (keyMerged key (k + 1) (key k a).1 l).2)

end Lokky.Spec
