import Verif.Proofs.ArcTreeCalls

/-!
# Trees of `Arc`s: nodes that nobody can get at

Every node that there is has a tree, so nodes do not keep each other alive in a circle: one that has handles has one in the
program, or a parent that is nearer to one.
-/

namespace Lokky
variable {α : Type} {n : Nat} {objs : List (CowObj α)} {hands : List (Option Nat)} {lost : List Nat} {f : List (Option (Spec.Tree α))}

/-- One depth suffices for all nodes. -/
theorem CowInv.deep {ops : List (CowOp α)} (I : CowInv n objs hands lost ops f) :
    ∃ K, ∀ (q : Nat) (o : CowObj α), objs[q]? = some o → o.alive = true → ∃ t, Den objs K q t := by
  have go : ∀ N, ∃ K, ∀ (q : Nat) (o : CowObj α), q < N → objs[q]? = some o → o.alive = true → ∃ t, Den objs K q t := by
    intro N
    induction N with
    | zero => exact ⟨0, fun q o h => absurd h (by omega)⟩
    | succ N ih =>
      obtain ⟨K, hK⟩ := ih
      by_cases e : ∃ o, objs[N]? = some o ∧ o.alive = true
      · obtain ⟨o, h1, h2⟩ := e
        obtain ⟨m, t, hm⟩ := I.all N o h1 h2
        refine ⟨max K m, fun q o' hq ho ha => ?_⟩
        by_cases e : q = N
        · subst e; exact ⟨t, hm.mono (by omega)⟩
        · obtain ⟨t, ht⟩ := hK q o' (by omega) ho ha
          exact ⟨t, ht.mono (by omega)⟩
      · refine ⟨K, fun q o' hq ho ha => ?_⟩
        by_cases e' : q = N
        · subst e'; exact absurd ⟨o', ho, ha⟩ e
        · exact hK q o' (by omega) ho ha
  obtain ⟨K, hK⟩ := go objs.length
  exact ⟨K, fun q o ho ha => hK q o (List.getElem?_eq_some_iff.1 ho).1 ho ha⟩

/-- A node that the program has no handle of, while nothing is going on, is a kid of another. -/
theorem CowInv.parent (I : CowInv n objs hands lost [] f) {q : Nat} {o : CowObj α} (ho : objs[q]? = some o) (ha : o.alive = true)
    (hh : some q ∉ hands) (hl : q ∉ lost) : ∃ (p : Nat) (x : CowObj α), objs[p]? = some x ∧ x.alive = true ∧ q ∈ x.kids := by
  have h1 := I.cnt q
  have h2 := I.ends q
  rw [strOf_eq ho, allRefs_count] at h1
  rw [zeroOf_eq ho] at h2
  simp only [CowObj.str, CowObj.zero, ha, if_true, List.flatMap_nil, List.count_nil, true_and] at h1 h2
  have e1 : (hands.flatMap Option.toList).count q = 0 := by
    rw [List.count_eq_zero]
    intro h
    obtain ⟨a, b, c⟩ := List.mem_flatMap.1 h
    cases a with
    | none => simp at c
    | some a => simp at c; subst c; exact hh b
  have e2 : lost.count q = 0 := List.count_eq_zero.2 hl
  have e3 : o.strong ≠ 0 := fun e => by simp [e] at h2
  have : q ∈ objs.flatMap CowObj.held := List.count_pos_iff.1 (by omega)
  obtain ⟨x, b, c⟩ := List.mem_flatMap.1 this
  obtain ⟨p, hp⟩ := List.mem_iff_getElem?.1 b
  unfold CowObj.held at c
  split at c
  · rename_i e; exact ⟨p, x, hp, e, c⟩
  · simp at c

/-- What holds of the nodes that the program has handles of, and of kids, holds of all nodes. -/
theorem CowInv.found (I : CowInv n objs hands lost [] f) {P : Nat → Prop} (h1 : ∀ q, some q ∈ hands → P q) (h2 : ∀ q ∈ lost, P q)
    (h3 : ∀ (p q : Nat) (x : CowObj α), P p → objs[p]? = some x → x.alive = true → q ∈ x.kids → P q)
    {q : Nat} {o : CowObj α} (ho : objs[q]? = some o) (ha : o.alive = true) : P q := by
  by_contra hq
  have go : ∀ k, ∃ (p : Nat) (x : CowObj α), objs[p]? = some x ∧ x.alive = true ∧ ¬ P p ∧ ∀ t, ¬ Den objs k p t := by
    intro k
    induction k with
    | zero => exact ⟨q, o, ho, ha, hq, fun _ h => h⟩
    | succ k ih =>
      obtain ⟨p, x, a, b, c, d⟩ := ih
      obtain ⟨p', x', a', b', c'⟩ := I.parent a b (fun h => c (h1 p h)) (fun h => c (h2 p h))
      refine ⟨p', x', a', b', fun h => c (h3 p' p x' h a' b' c'), fun t ht => ?_⟩
      obtain ⟨y, e1, _, _, e2⟩ := ht
      rw [a'] at e1; cases e1
      obtain ⟨i, hi⟩ := List.mem_iff_getElem?.1 c'
      obtain ⟨hi1, hi2⟩ := List.getElem?_eq_some_iff.1 hi
      have := e2.length_eq
      have h := List.Forall₂.get e2 hi1 (by omega)
      simp only [List.get_eq_getElem, hi2] at h
      exact d _ h
  obtain ⟨K, hK⟩ := I.deep
  obtain ⟨p, x, a, b, _, d⟩ := go K
  obtain ⟨t, ht⟩ := hK p x a b
  exact d t ht

end Lokky
