import Verif.Proofs.ArcTree

/-! What to check when one object, one thread and the hands change. -/

namespace Lokky
variable {α : Type}

section
variable {n : Nat} {objs : List (CowObj α)} {hands hands' : List (Option Nat)} {lost lost' : List Nat}
  {ops old new rest : List (CowOp α)} {f f' : List (Option (Spec.Tree α))} {p q h : Nat} {o o' : CowObj α}

theorem allRefs_count : (allRefs objs hands lost ops).count q = (hands.flatMap Option.toList).count q + lost.count q +
    (objs.flatMap CowObj.held).count q + (ops.flatMap CowOp.refs).count q := by
  simp only [allRefs, List.count_append]; omega

theorem allRefs_length : (allRefs objs hands lost ops).length = (hands.flatMap Option.toList).length + lost.length +
    (objs.flatMap CowObj.held).length + (ops.flatMap CowOp.refs).length := by
  simp only [allRefs, List.length_append]; omega

/-- Objects with handles are there. -/
theorem CowInv.there (I : CowInv n objs hands lost ops f) (hq : 0 < (allRefs objs hands lost ops).count q) :
    ∃ o, objs[q]? = some o ∧ o.alive = true ∧ o.freed = false ∧ o.strong = (allRefs objs hands lost ops).count q := by
  have e := I.cnt q
  obtain ⟨o, h1, h2, h3⟩ := strOf_pos (objs := objs) (p := q) (by omega)
  refine ⟨o, h1, h2, ?_, by omega⟩
  by_contra hc
  have := I.freed q o h1 (by simpa using hc)
  simp [h2] at this

/-- Objects whose node is about to go are there. -/
theorem CowInv.ending (I : CowInv n objs hands lost ops f) (hq : 0 < (ops.flatMap CowOp.ends).count q) :
    ∃ o, objs[q]? = some o ∧ o.alive = true ∧ o.freed = false ∧ o.strong = 0 ∧ (ops.flatMap CowOp.ends).count q = 1 ∧
      (allRefs objs hands lost ops).count q = 0 := by
  have e := I.ends q
  obtain ⟨o, h1, h2, h3⟩ := zeroOf_pos (objs := objs) (p := q) (by omega)
  refine ⟨o, h1, h2, ?_, h3, ?_, ?_⟩
  · by_contra hc
    have := I.freed q o h1 (by simpa using hc)
    simp [h2] at this
  · rw [e, zeroOf_eq h1]; simp [CowObj.zero, h2, h3]
  · rw [I.cnt, strOf_eq h1]; simp [CowObj.str, h3]

/-- What to check when one object, one thread and the hands change. -/
theorem CowInv.upd (I : CowInv n objs hands lost (old ++ rest) f) (ho : objs[p]? = some o)
    (bal : ∀ q, (hands'.flatMap Option.toList).count q + lost'.count q + o'.held.count q + (new.flatMap CowOp.refs).count q +
        (if q = p then o.str else 0) =
      (hands.flatMap Option.toList).count q + lost.count q + o.held.count q + (old.flatMap CowOp.refs).count q +
        (if q = p then o'.str else 0))
    (size : (hands'.flatMap Option.toList).length + lost'.length + o'.held.length + (new.flatMap CowOp.refs).length ≤
      (hands.flatMap Option.toList).length + lost.length + o.held.length + (old.flatMap CowOp.refs).length + 1)
    (ends : ∀ q, (new.flatMap CowOp.ends).count q + (if q = p then o.zero else 0) =
      (old.flatMap CowOp.ends).count q + (if q = p then o'.zero else 0))
    (looks : ∀ q, q ≠ p → (new.flatMap CowOp.looks).count q ≤ (old.flatMap CowOp.looks).count q)
    (lookp : ∀ R, (0 < R + (old.flatMap CowOp.looks).count p →
        R + (old.flatMap CowOp.looks).count p = 1 ∧ o.alive = false ∧ o.freed = false ∧ o.strong = 0) →
      0 < R + (new.flatMap CowOp.looks).count p →
        R + (new.flatMap CowOp.looks).count p = 1 ∧ o'.alive = false ∧ o'.freed = false ∧ o'.strong = 0)
    (freed : o'.freed = true → o'.alive = false)
    (soleN : ∀ op ∈ new, ∀ q, op.sole = some q → strOf (objs.set p o') q = 1)
    (soleR : o'.str = o.str ∨ ∀ op ∈ rest, op.sole ≠ some p)
    (len : f'.length = hands'.length)
    (names : ∀ h, (new.flatMap CowOp.names).count h + has hands' h + has f h =
      (old.flatMap CowOp.names).count h + has hands h + has f' h)
    (hval : ∀ (h q : Nat) (t : Spec.Tree α), hands'[h]? = some (some q) → f'[h]? = some (some t) →
      ∃ m, Den (objs.set p o') m q t)
    (ovalN : ∀ op ∈ new, ∀ h ∈ op.names, ∀ t : Spec.Tree α, f'[h]? = some (some t) → op.Means (objs.set p o') t)
    (ovalR : ∀ op ∈ rest, ∀ h ∈ op.names, ∀ t : Spec.Tree α, f'[h]? = some (some t) → op.Means (objs.set p o') t)
    (all : ∀ (q : Nat) (x : CowObj α), (objs.set p o')[q]? = some x → x.alive = true → ∃ m t, Den (objs.set p o') m q t) :
    CowInv (n + 1) (objs.set p o') hands' lost' (new ++ rest) f' := by
  refine ⟨fun q => ?_, ?_, fun q => ?_, fun q => ?_, fun q x hx hf => ?_, fun op hop q hq => ?_, len, fun k => ?_, hval, ?_, all⟩
  · have h1 := I.cnt q
    have h2 := bal q
    have h3 := count_flatMap_set CowObj.held o' ho q
    rw [strOf_set ho]
    simp only [allRefs_count, List.flatMap_append, List.count_append] at h1 ⊢
    by_cases e : q = p
    · subst e; rw [strOf_eq ho] at h1; simp only [if_true] at h2 ⊢; omega
    · simp only [e, if_false] at h2 ⊢; omega
  · have h1 := I.size
    have h3 := length_flatMap_set CowObj.held o' ho
    simp only [allRefs_length, List.flatMap_append, List.length_append] at h1 ⊢
    omega
  · have h1 := I.ends q
    have h2 := ends q
    rw [zeroOf_set ho]
    simp only [List.flatMap_append, List.count_append] at h1 ⊢
    by_cases e : q = p
    · subst e; rw [zeroOf_eq ho] at h1; simp only [if_true] at h2 ⊢; omega
    · simp only [e, if_false] at h2 ⊢; omega
  · intro hl
    have h1 := I.looks q
    simp only [List.flatMap_append, List.count_append] at h1 hl ⊢
    obtain ⟨hp, _⟩ := List.getElem?_eq_some_iff.1 ho
    by_cases e : q = p
    · subst e
      have := lookp ((rest.flatMap CowOp.looks).count q) (fun h0 => by
        obtain ⟨k1, o1, k2, k3⟩ := h1 (by omega)
        rw [ho] at k2; cases k2
        exact ⟨by omega, k3⟩) (by omega)
      exact ⟨by omega, o', by simp [hp], this.2⟩
    · have h2 := looks q e
      obtain ⟨k1, o1, k2, k3⟩ := h1 (by omega)
      exact ⟨by omega, o1, by simp [List.getElem?_set, show ¬ p = q from fun h => e h.symm, k2], k3⟩
  · rw [List.getElem?_set] at hx
    split at hx
    · split at hx
      · cases hx; exact freed hf
      · cases hx
    · exact I.freed q x hx hf
  · rcases List.mem_append.1 hop with h1 | h1
    · exact soleN op h1 q hq
    · have h2 := I.sole op (List.mem_append.2 (.inr h1)) q hq
      rw [strOf_set ho]
      split
      · rename_i e; subst e
        rcases soleR with h3 | h3
        · rw [h3, ← strOf_eq ho]; exact h2
        · exact absurd hq (h3 op h1)
      · exact h2
  · have h1 := I.names k
    have h2 := names k
    simp only [List.flatMap_append, List.count_append] at h1 ⊢
    omega
  · intro op hop
    rcases List.mem_append.1 hop with h1 | h1
    · exact ovalN op h1
    · exact ovalR op h1

/-- What to check when no node changes. -/
theorem CowInv.quiet (I : CowInv n objs hands lost (old ++ rest) f) (ho : objs[p]? = some o)
    (ea : o'.alive = o.alive) (ev : o'.val = o.val) (ek : o'.kids = o.kids)
    (bal : ∀ q, (hands'.flatMap Option.toList).count q + lost'.count q + (new.flatMap CowOp.refs).count q +
        (if q = p then o.str else 0) =
      (hands.flatMap Option.toList).count q + lost.count q + (old.flatMap CowOp.refs).count q +
        (if q = p then o'.str else 0))
    (size : (hands'.flatMap Option.toList).length + lost'.length + (new.flatMap CowOp.refs).length ≤
      (hands.flatMap Option.toList).length + lost.length + (old.flatMap CowOp.refs).length + 1)
    (ends : ∀ q, (new.flatMap CowOp.ends).count q + (if q = p then o.zero else 0) =
      (old.flatMap CowOp.ends).count q + (if q = p then o'.zero else 0))
    (looks : ∀ q, q ≠ p → (new.flatMap CowOp.looks).count q ≤ (old.flatMap CowOp.looks).count q)
    (lookp : ∀ R, (0 < R + (old.flatMap CowOp.looks).count p →
        R + (old.flatMap CowOp.looks).count p = 1 ∧ o.alive = false ∧ o.freed = false ∧ o.strong = 0) →
      0 < R + (new.flatMap CowOp.looks).count p →
        R + (new.flatMap CowOp.looks).count p = 1 ∧ o'.alive = false ∧ o'.freed = false ∧ o'.strong = 0)
    (freed : o'.freed = true → o'.alive = false)
    (soleN : ∀ op ∈ new, ∀ q, op.sole = some q → strOf (objs.set p o') q = 1)
    (soleR : o'.str = o.str ∨ ∀ op ∈ rest, op.sole ≠ some p)
    (len : f'.length = hands'.length)
    (names : ∀ h, (new.flatMap CowOp.names).count h + has hands' h + has f h =
      (old.flatMap CowOp.names).count h + has hands h + has f' h)
    (fr : ∀ op ∈ rest, ∀ h ∈ op.names, f'[h]? = f[h]?)
    (hval : ∀ (h q : Nat) (t : Spec.Tree α), hands'[h]? = some (some q) → f'[h]? = some (some t) → ∃ m, Den objs m q t)
    (ovalN : ∀ op ∈ new, ∀ h ∈ op.names, ∀ t : Spec.Tree α, f'[h]? = some (some t) → op.Means objs t) :
    CowInv (n + 1) (objs.set p o') hands' lost' (new ++ rest) f' := by
  have keep : ∀ q x, (fun _ : Nat => True) q → objs[q]? = some x → x.alive = true →
      (∃ x', (objs.set p o')[q]? = some x' ∧ x'.alive = true ∧ x'.val = x.val ∧ x'.kids = x.kids) ∧
        ∀ k ∈ x.kids, (fun _ : Nat => True) k := by
    intro q x _ hx ha
    refine ⟨?_, fun _ _ => trivial⟩
    obtain ⟨hp, _⟩ := List.getElem?_eq_some_iff.1 ho
    by_cases e : q = p
    · subst e
      rw [ho] at hx; cases hx
      exact ⟨o', by simp [hp], by rw [ea, ha], ev, ek⟩
    · exact ⟨x, by simp [List.getElem?_set, show ¬ p = q from fun h => e h.symm, hx], ha, rfl, rfl⟩
  have eh : o'.held = o.held := by simp only [CowObj.held, ea, ek]
  refine I.upd ho (fun q => ?_) ?_ ends looks lookp freed soleN soleR len names ?_ ?_ ?_ ?_
  · have := bal q
    rw [eh]; omega
  · rw [eh]; omega
  · intro h q t h1 h2
    obtain ⟨m, hm⟩ := hval h q t h1 h2
    exact ⟨m, hm.frame keep trivial⟩
  · intro op hop h hh t ht
    exact (ovalN op hop h hh t ht).frame keep fun _ _ => trivial
  · intro op hop h hh t ht
    rw [fr op hop h hh] at ht
    exact (I.oval op (List.mem_append.2 (.inr hop)) h hh t ht).frame keep fun _ _ => trivial
  · intro q x hx hax
    rw [List.getElem?_set] at hx
    split at hx
    · split at hx
      · rename_i e _
        cases hx; subst e
        obtain ⟨m, t, hm⟩ := I.all p o ho (by rw [← ea]; exact hax)
        exact ⟨m, t, hm.frame keep trivial⟩
      · cases hx
    · obtain ⟨m, t, hm⟩ := I.all q x hx hax
      exact ⟨m, t, hm.frame keep trivial⟩

/-- What to check when a node changes of which nobody else has a handle. -/
theorem CowInv.excl (I : CowInv n objs hands lost (old ++ rest) f) (ho : objs[p]? = some o)
    (hh0 : (hands.flatMap Option.toList).count p = 0) (ho0 : (objs.flatMap CowObj.held).count p = 0)
    (hr0 : (rest.flatMap CowOp.refs).count p = 0) (he0 : (rest.flatMap CowOp.ends).count p = 0)
    (bal : ∀ q, (hands'.flatMap Option.toList).count q + lost'.count q + o'.held.count q + (new.flatMap CowOp.refs).count q +
        (if q = p then o.str else 0) =
      (hands.flatMap Option.toList).count q + lost.count q + o.held.count q + (old.flatMap CowOp.refs).count q +
        (if q = p then o'.str else 0))
    (size : (hands'.flatMap Option.toList).length + lost'.length + o'.held.length + (new.flatMap CowOp.refs).length ≤
      (hands.flatMap Option.toList).length + lost.length + o.held.length + (old.flatMap CowOp.refs).length + 1)
    (ends : ∀ q, (new.flatMap CowOp.ends).count q + (if q = p then o.zero else 0) =
      (old.flatMap CowOp.ends).count q + (if q = p then o'.zero else 0))
    (looks : ∀ q, q ≠ p → (new.flatMap CowOp.looks).count q ≤ (old.flatMap CowOp.looks).count q)
    (lookp : ∀ R, (0 < R + (old.flatMap CowOp.looks).count p →
        R + (old.flatMap CowOp.looks).count p = 1 ∧ o.alive = false ∧ o.freed = false ∧ o.strong = 0) →
      0 < R + (new.flatMap CowOp.looks).count p →
        R + (new.flatMap CowOp.looks).count p = 1 ∧ o'.alive = false ∧ o'.freed = false ∧ o'.strong = 0)
    (freed : o'.freed = true → o'.alive = false)
    (soleN : ∀ op ∈ new, ∀ q, op.sole = some q → strOf (objs.set p o') q = 1)
    (len : f'.length = hands'.length)
    (names : ∀ h, (new.flatMap CowOp.names).count h + has hands' h + has f h =
      (old.flatMap CowOp.names).count h + has hands h + has f' h)
    (fr : ∀ op ∈ rest, ∀ h ∈ op.names, f'[h]? = f[h]?)
    (hval : ∀ (h q : Nat) (t : Spec.Tree α), hands'[h]? = some (some q) → f'[h]? = some (some t) →
      q ≠ p ∧ ∃ m, Den objs m q t)
    (ovalN : (∀ k m t, k ≠ p → Den objs m k t → Den (objs.set p o') m k t) →
      ∀ op ∈ new, ∀ h ∈ op.names, ∀ t : Spec.Tree α, f'[h]? = some (some t) → op.Means (objs.set p o') t)
    (allN : (∀ k m t, k ≠ p → Den objs m k t → Den (objs.set p o') m k t) → o'.alive = true → ∃ m t, Den (objs.set p o') m p t) :
    CowInv (n + 1) (objs.set p o') hands' lost' (new ++ rest) f' := by
  have keep : ∀ q x, (fun q : Nat => q ≠ p) q → objs[q]? = some x → x.alive = true →
      (∃ x', (objs.set p o')[q]? = some x' ∧ x'.alive = true ∧ x'.val = x.val ∧ x'.kids = x.kids) ∧
        ∀ k ∈ x.kids, (fun q : Nat => q ≠ p) k := by
    intro q x hq hx ha
    refine ⟨⟨x, by simp [List.getElem?_set, show ¬ p = q from fun h => hq h.symm, hx], ha, rfl, rfl⟩, ?_⟩
    intro k hk e
    subst e
    have : k ∈ objs.flatMap CowObj.held :=
      List.mem_flatMap.2 ⟨x, List.mem_of_getElem? hx, by simpa [CowObj.held, ha] using hk⟩
    exact absurd (List.count_pos_iff.2 this) (by omega)
  refine I.upd ho bal size ends looks lookp freed soleN ?_ len names ?_ (ovalN fun k m t hk h => h.frame keep hk) ?_ ?_
  · right
    intro op hop hs
    have : p ∈ rest.flatMap CowOp.refs := List.mem_flatMap.2 ⟨op, hop, CowOp.sole_refs hs⟩
    exact absurd (List.count_pos_iff.2 this) (by omega)
  · intro h q t h1 h2
    obtain ⟨hq, m, hm⟩ := hval h q t h1 h2
    exact ⟨m, hm.frame keep hq⟩
  · intro op hop h hh t ht
    rw [fr op hop h hh] at ht
    refine (I.oval op (List.mem_append.2 (.inr hop)) h hh t ht).frame keep ?_
    intro q hq e
    subst e
    rcases hq with hq | hq
    · exact absurd (List.count_pos_iff.2 (List.mem_flatMap.2 ⟨op, hop, hq⟩)) (by omega)
    · exact absurd (List.count_pos_iff.2 (List.mem_flatMap.2 ⟨op, hop, hq⟩)) (by omega)
  · intro q x hx hax
    rw [List.getElem?_set] at hx
    split at hx
    · split at hx
      · rename_i e _
        cases hx; subst e
        exact allN (fun k m t hk h => h.frame keep hk) hax
      · cases hx
    · rename_i e
      obtain ⟨m, t, hm⟩ := I.all q x hx hax
      exact ⟨m, t, hm.frame keep fun h => e h.symm⟩

/-- What to check when no object changes. -/
theorem CowInv.same (I : CowInv n objs hands lost (old ++ rest) f)
    (bal : ∀ q, (hands'.flatMap Option.toList).count q + lost'.count q + (new.flatMap CowOp.refs).count q =
      (hands.flatMap Option.toList).count q + lost.count q + (old.flatMap CowOp.refs).count q)
    (size : (hands'.flatMap Option.toList).length + lost'.length + (new.flatMap CowOp.refs).length ≤
      (hands.flatMap Option.toList).length + lost.length + (old.flatMap CowOp.refs).length + 1)
    (ends : ∀ q, (new.flatMap CowOp.ends).count q = (old.flatMap CowOp.ends).count q)
    (looks : ∀ q, (new.flatMap CowOp.looks).count q ≤ (old.flatMap CowOp.looks).count q)
    (soleN : ∀ op ∈ new, ∀ q, op.sole = some q → strOf objs q = 1)
    (len : f'.length = hands'.length)
    (names : ∀ h, (new.flatMap CowOp.names).count h + has hands' h + has f h =
      (old.flatMap CowOp.names).count h + has hands h + has f' h)
    (fr : ∀ op ∈ rest, ∀ h ∈ op.names, f'[h]? = f[h]?)
    (hval : ∀ (h q : Nat) (t : Spec.Tree α), hands'[h]? = some (some q) → f'[h]? = some (some t) → ∃ m, Den objs m q t)
    (ovalN : ∀ op ∈ new, ∀ h ∈ op.names, ∀ t : Spec.Tree α, f'[h]? = some (some t) → op.Means objs t) :
    CowInv (n + 1) objs hands' lost' (new ++ rest) f' := by
  refine ⟨fun q => ?_, ?_, fun q => ?_, fun q => ?_, I.freed, fun op hop q hq => ?_, len, fun k => ?_, hval, ?_, I.all⟩
  · have h1 := I.cnt q
    have h2 := bal q
    simp only [allRefs_count, List.flatMap_append, List.count_append] at h1 ⊢
    omega
  · have h1 := I.size
    simp only [allRefs_length, List.flatMap_append, List.length_append] at h1 ⊢
    omega
  · have h1 := I.ends q
    have h2 := ends q
    simp only [List.flatMap_append, List.count_append] at h1 ⊢
    omega
  · intro hl
    have h1 := I.looks q
    have h2 := looks q
    simp only [List.flatMap_append, List.count_append] at h1 hl ⊢
    obtain ⟨k1, k2⟩ := h1 (by omega)
    exact ⟨by omega, k2⟩
  · rcases List.mem_append.1 hop with h1 | h1
    · exact soleN op h1 q hq
    · exact I.sole op (List.mem_append.2 (.inr h1)) q hq
  · have h1 := I.names k
    have h2 := names k
    simp only [List.flatMap_append, List.count_append] at h1 ⊢
    omega
  · intro op hop
    rcases List.mem_append.1 hop with h1 | h1
    · exact ovalN op h1
    · intro h hh t ht
      rw [fr op h1 h hh] at ht
      exact I.oval op (List.mem_append.2 (.inr h1)) h hh t ht

/-- What to check when there is a new object. -/
theorem CowInv.app (I : CowInv n objs hands lost (old ++ rest) f) {x : CowObj α} (hx : x.freed = false ∧ x.alive = true ∧ x.strong = 1)
    (bal : ∀ q, (hands'.flatMap Option.toList).count q + lost'.count q + x.held.count q + (new.flatMap CowOp.refs).count q =
      (hands.flatMap Option.toList).count q + lost.count q + (old.flatMap CowOp.refs).count q +
        (if q = objs.length then 1 else 0))
    (size : (hands'.flatMap Option.toList).length + lost'.length + x.held.length + (new.flatMap CowOp.refs).length ≤
      (hands.flatMap Option.toList).length + lost.length + (old.flatMap CowOp.refs).length + 1)
    (ends : ∀ q, (new.flatMap CowOp.ends).count q = (old.flatMap CowOp.ends).count q)
    (looks : ∀ q, (new.flatMap CowOp.looks).count q = (old.flatMap CowOp.looks).count q)
    (soleN : ∀ op ∈ new, ∀ q, op.sole = some q → strOf (objs ++ [x]) q = 1)
    (len : f'.length = hands'.length)
    (names : ∀ h, (new.flatMap CowOp.names).count h + has hands' h + has f h =
      (old.flatMap CowOp.names).count h + has hands h + has f' h)
    (fr : ∀ op ∈ rest, ∀ h ∈ op.names, f'[h]? = f[h]?)
    (hval : (∀ k m t, Den objs m k t → Den (objs ++ [x]) m k t) →
      ∀ (h q : Nat) (t : Spec.Tree α), hands'[h]? = some (some q) → f'[h]? = some (some t) → ∃ m, Den (objs ++ [x]) m q t)
    (ovalN : (∀ k m t, Den objs m k t → Den (objs ++ [x]) m k t) →
      ∀ op ∈ new, ∀ h ∈ op.names, ∀ t : Spec.Tree α, f'[h]? = some (some t) → op.Means (objs ++ [x]) t)
    (allN : (∀ k m t, Den objs m k t → Den (objs ++ [x]) m k t) → ∃ m t, Den (objs ++ [x]) m objs.length t) :
    CowInv (n + 1) (objs ++ [x]) hands' lost' (new ++ rest) f' := by
  have get : ∀ {q : Nat} {y : CowObj α}, objs[q]? = some y → (objs ++ [x])[q]? = some y := by
    intro q y hy
    obtain ⟨hq, _⟩ := List.getElem?_eq_some_iff.1 hy
    rw [List.getElem?_append_left hq, hy]
  have keep : ∀ q y, (fun _ : Nat => True) q → objs[q]? = some y → y.alive = true →
      (∃ y', (objs ++ [x])[q]? = some y' ∧ y'.alive = true ∧ y'.val = y.val ∧ y'.kids = y.kids) ∧
        ∀ k ∈ y.kids, (fun _ : Nat => True) k :=
    fun q y _ hy ha => ⟨⟨y, get hy, ha, rfl, rfl⟩, fun _ _ => trivial⟩
  have es : ∀ q, strOf (objs ++ [x]) q = strOf objs q + if q = objs.length then 1 else 0 := by
    intro q
    simp only [strOf, List.getElem?_append]
    by_cases e : q < objs.length
    · simp [e, show q ≠ objs.length by omega]
    · by_cases e2 : q = objs.length
      · subst e2; simp [CowObj.str, hx]
      · simp [e, e2, show q - objs.length ≠ 0 by omega]
  have ez : ∀ q, zeroOf (objs ++ [x]) q = zeroOf objs q := by
    intro q
    simp only [zeroOf, List.getElem?_append]
    by_cases e : q < objs.length
    · simp [e]
    · by_cases e2 : q = objs.length
      · subst e2; simp [CowObj.zero, hx]
      · simp [e, show q - objs.length ≠ 0 by omega]
  refine ⟨fun q => ?_, ?_, fun q => ?_, fun q => ?_, fun q y hy hf => ?_, fun op hop q hq => ?_, len, fun k => ?_,
    hval fun k m t h => h.frame keep trivial, ?_, ?_⟩
  · have h1 := I.cnt q
    have h2 := bal q
    rw [es]
    simp only [allRefs_count, List.flatMap_append, List.count_append, List.flatMap_cons, List.flatMap_nil, List.append_nil] at h1 ⊢
    omega
  · have h1 := I.size
    simp only [allRefs_length, List.flatMap_append, List.length_append, List.flatMap_cons, List.flatMap_nil, List.append_nil] at h1 ⊢
    omega
  · have h1 := I.ends q
    have h2 := ends q
    rw [ez]
    simp only [List.flatMap_append, List.count_append] at h1 ⊢
    omega
  · intro hl
    have h1 := I.looks q
    have h2 := looks q
    simp only [List.flatMap_append, List.count_append] at h1 hl ⊢
    obtain ⟨k1, y, k2, k3⟩ := h1 (by omega)
    exact ⟨by omega, y, get k2, k3⟩
  · rw [List.getElem?_append] at hy
    split at hy
    · exact I.freed q y hy hf
    · cases e : q - objs.length with
      | zero => rw [e] at hy; cases hy; simp [hx] at hf
      | succ k => simp [e] at hy
  · rcases List.mem_append.1 hop with h1 | h1
    · exact soleN op h1 q hq
    · have h2 := I.sole op (List.mem_append.2 (.inr h1)) q hq
      rw [es]
      have : q ≠ objs.length := by
        intro e; subst e
        simp [strOf] at h2
      simp [this, h2]
  · have h1 := I.names k
    have h2 := names k
    simp only [List.flatMap_append, List.count_append] at h1 ⊢
    omega
  · intro op hop
    rcases List.mem_append.1 hop with h1 | h1
    · exact ovalN (fun k m t h => h.frame keep trivial) op h1
    · intro h hh t ht
      rw [fr op h1 h hh] at ht
      exact (I.oval op (List.mem_append.2 (.inr h1)) h hh t ht).frame keep fun _ _ => trivial
  · intro q y hy hay
    rw [List.getElem?_append] at hy
    split at hy
    · obtain ⟨m, t, hm⟩ := I.all q y hy hay
      exact ⟨m, t, hm.frame keep trivial⟩
    · rename_i e
      obtain ⟨h1, _⟩ := List.getElem?_eq_some_iff.1 hy
      simp only [List.length_singleton] at h1
      obtain rfl : q = objs.length := by omega
      exact allN fun k m t h => h.frame keep trivial

end

end Lokky
