import Verif.Proofs.SelectorOwn

/-!
# C136: pointers know their allocator, and how it was selected
-/

namespace Lokky
variable {Site : Type} {L : Linked Site PTy} {choose : Nat → AllocSelector → Nat}

/-- C136, allocators: for all programs, memory comes from the allocator that the scope which is current at the call
selects, and goes back to the same allocator, whichever scope is current then and whatever the pointer was cast to. -/
theorem C136_allocator_partial {os : List (SelOp Site)} {k : Nat} {s : SelSt}
    (hr : SelOp.runAll L choose os (SelSt.start k) = .ok () s) :
    (∀ pre k' q a b post, s.log = pre ++ .got k' q a b :: post → k' = scopeAfter k pre ∧ a = choose k' q) ∧
    (∀ pre a b b' post, s.log = pre ++ .regot a b b' :: post → ∃ q, Given pre b q a) ∧
    (∀ pre a b post, s.log = pre ++ .back a b :: post → ∃ q, Given pre b q a) := by
  have h := (SelInv.start L choose False k).runAll (fun h => h.elim) hr
  refine ⟨?_, ?_, ?_⟩
  · intro pre k' q a b post e
    exact ⟨(h.log pre _ post e).1, (h.log pre _ post e).2.1⟩
  · intro pre a b b' post e
    exact (h.log pre _ post e).1
  · intro pre a b post e
    exact h.log pre _ post e

/-- C136: there is one selector and one allocator that memory was got by. -/
theorem C136_unique_partial {os : List (SelOp Site)} {k : Nat} {s : SelSt}
    (hr : SelOp.runAll L choose os (SelSt.start k) = .ok () s) {b a a' : Nat} {q q' : AllocSelector}
    (h1 : Given s.log b q a) (h2 : Given s.log b q' a') : q = q' ∧ a = a' :=
  Given.unique ((SelInv.start L choose False k).runAll (fun h => h.elim) hr).log h1 h2

/-- C136, markers: `marker` of each pointer is that of the selector its memory was got by. -/
theorem C136_marker_partial {os : List (SelOp Site)} {k : Nat} {s : SelSt}
    (hr : SelOp.runAll L choose os (SelSt.start k) = .ok () s) {i : Nat} {p : SPtr} (hp : s.ptrs[i]? = some (some p)) :
    ∃ q, Given s.log p.block q p.alloc ∧ p.getMarker = q.marker := by
  obtain ⟨q, hg, hm, -⟩ := ((SelInv.start L choose False k).runAll (fun h => h.elim) hr).getPtr hp
  exact ⟨q, hg, hm⟩

/-- C136: each way to make a pointer asks the current scope once, with the selector and marker that the caller gave, and
the pointer then has that marker. In all states. -/
theorem C136_asked_partial (x : Site) (t : PTy) (m : AllocMarker) (q : AllocSelector) (s : SelSt) :
    (∃ s' p, (SelOp.box x t).run L choose s = .ok () s' ∧ s'.ptrs = s.ptrs ++ [some p] ∧ p.getMarker = .none ∧ p.ty = t ∧
      s'.log = s.log ++ [.got s.cur ⟨.none, L.typeName x t⟩ p.alloc p.block]) ∧
    (∃ s' p, (SelOp.boxWith x t m).run L choose s = .ok () s' ∧ s'.ptrs = s.ptrs ++ [some p] ∧ p.getMarker = m ∧ p.ty = t ∧
      s'.log = s.log ++ [.got s.cur ⟨m, L.typeName x t⟩ p.alloc p.block]) ∧
    (∃ s' p, (SelOp.alloc t q : SelOp Site).run L choose s = .ok () s' ∧ s'.ptrs = s.ptrs ++ [some p] ∧
      p.getMarker = q.marker ∧ p.ty = t ∧ s'.log = s.log ++ [.got s.cur q p.alloc p.block]) ∧
    (∃ s' p, (SelOp.array t q : SelOp Site).run L choose s = .ok () s' ∧ s'.ptrs = s.ptrs ++ [some p] ∧
      p.getMarker = q.marker ∧ p.ty = .slice t ∧ s'.log = s.log ++ [.got s.cur q p.alloc p.block]) :=
  ⟨⟨_, _, rfl, rfl, rfl, rfl, rfl⟩, ⟨_, _, rfl, rfl, rfl, rfl, rfl⟩, ⟨_, _, rfl, rfl, rfl, rfl, rfl⟩,
    ⟨_, _, rfl, rfl, rfl, rfl, rfl⟩⟩

/-- C136, selectors: if types have one name each in the program, `alloc_selector` of pointers made by `Box::new` and
`Box::new_with`, and not cast, gives the selector their memory was got by. -/
theorem C136_selector_partial (hL : ∀ x y t, L.addr x t = L.addr y t) {os : List (SelOp Site)} (ho : ∀ o ∈ os, o.typed)
    {k : Nat} {s : SelSt} (hr : SelOp.runAll L choose os (SelSt.start k) = .ok () s) {pre post : List SelEv} {b : Nat}
    {q' : AllocSelector} (he : s.log = pre ++ .told b q' :: post) : ∃ q a, Given pre b q a ∧ q' = q := by
  have h := (SelInv.start L choose True k).runAll (fun _ => ho) hr
  obtain ⟨q, a, hg, -, ht⟩ := h.log pre _ post he
  obtain ⟨x, y, t, e1, e2⟩ := ht trivial
  refine ⟨q, a, hg, ?_⟩
  obtain ⟨m, ty⟩ := q
  simp only at e2
  rw [e1, e2]
  simp only [Linked.selector, Linked.typeName, hL x y t]

/-- C136: without `ScopePtr::clone`, no program uses memory that was given back; without `forget` all memory in use has a
pointer, so when the pointers are dropped, all of it was given back. -/
theorem C136_safe_partial (os : List (SelOp Site)) (k : Nat) (ho : ∀ o ∈ os, o.single) :
    ∃ s, SelOp.runAll L choose os (SelSt.start k) = .ok () s ∧
      ((∀ o ∈ os, o.keeps) → (∀ p ∈ s.ptrs, p = none) → s.live = []) := by
  have h0 : OwnInv (∀ o ∈ os, o.keeps) (SelSt.start k).ptrs (SelSt.start k).next (SelSt.start k).live :=
    ⟨by simp [SelSt.start], by simp [SelSt.start], List.nodup_nil, by simp [SelSt.start], by simp [SelSt.start]⟩
  obtain ⟨s, e, h⟩ := h0.runAll (L := L) (choose := choose) ho fun h => h
  refine ⟨s, e, fun hk hn => ?_⟩
  rcases hl : s.live with _ | ⟨b, l⟩
  · rfl
  · obtain ⟨i, p, hp, -⟩ := h.owned hk b (hl ▸ List.mem_cons_self)
    cases hn _ (List.mem_of_getElem? hp)

/-- C136 does not hold for arrays: got by a selector for `T`, as `Vec` does, the pointer says that it was one for `[T]`. -/
theorem C136_array_refuted (x : Site) (t : PTy) (hL : L.addr x (.slice t) ≠ L.addr x t) (k : Nat) :
    ∃ s q q', SelOp.runAll L choose [.array t (L.plain x t), .selector x 0] (SelSt.start k) = .ok () s ∧
      s.log = [.got k q (choose k q) 0, .told 0 q'] ∧ q'.eq q = false := by
  refine ⟨_, L.plain x t, _, rfl, rfl, ?_⟩
  simp only [AllocSelector.eq, SPtr.allocSelector, SPtr.castToSlice, Linked.selector, Linked.plain, Linked.typeName,
    Bool.and_eq_false_iff]
  exact .inr (beq_false_of_ne hL)

/-- C136 does not hold for the pointer that `Urc::try_into_fence` gives. -/
theorem C136_fence_refuted (x : Site) (t : PTy) (hL : L.addr x (.fence t) ≠ L.addr x t) (k : Nat) :
    ∃ s q0 q q', SelOp.runAll L choose [.fence x t, .selector x 1] (SelSt.start k) = .ok () s ∧
      s.log = [.got k q0 (choose k q0) 0, .got k q (choose k q) 1, .told 1 q'] ∧ q'.eq q = false := by
  refine ⟨_, L.plain x (.master t), L.plain x t, _, rfl, rfl, ?_⟩
  simp only [AllocSelector.eq, SPtr.allocSelector, Linked.selector, Linked.plain, Linked.typeName,
    Bool.and_eq_false_iff]
  exact .inr (beq_false_of_ne hL)

/-- C136 does not hold for `ScopePtr::alloc` with a selector for another type. -/
theorem C136_other_refuted (x : Site) (t u : PTy) (hL : L.addr x t ≠ L.addr x u) (k : Nat) :
    ∃ s q q', SelOp.runAll L choose [.alloc t (L.plain x u), .selector x 0] (SelSt.start k) = .ok () s ∧
      s.log = [.got k q (choose k q) 0, .told 0 q'] ∧ q'.eq q = false := by
  refine ⟨_, L.plain x u, _, rfl, rfl, ?_⟩
  simp only [AllocSelector.eq, SPtr.allocSelector, Linked.selector, Linked.plain, Linked.typeName,
    Bool.and_eq_false_iff]
  exact .inr (beq_false_of_ne hL)

/-- C136 does not hold if `type_name` gives a type another address at another place of the program, even for `Box`. -/
theorem C136_sites_refuted (x y : Site) (t : PTy) (hL : L.addr y t ≠ L.addr x t) (k : Nat) :
    ∃ s q q', SelOp.runAll L choose [.box x t, .selector y 0] (SelSt.start k) = .ok () s ∧
      s.log = [.got k q (choose k q) 0, .told 0 q'] ∧ q'.eq q = false := by
  refine ⟨_, L.plain x t, _, rfl, rfl, ?_⟩
  simp only [AllocSelector.eq, SPtr.allocSelector, Linked.selector, Linked.plain, Linked.typeName,
    Bool.and_eq_false_iff]
  exact .inr (beq_false_of_ne hL)

/-- A linker for the examples: a name for each type, the same at each place. -/
def oneName : Linked Nat PTy :=
  let rec num : PTy → Nat
    | .base n => 5 * n
    | .str => 1
    | .slice t => 5 * num t + 2
    | .fence t => 5 * num t + 3
    | .master t => 5 * num t + 4
  ⟨fun t => [num t], fun _ t => num t⟩

/-- A box is made in scope 1, enlarged and given back in scope 2. -/
example : (match SelOp.runAll oneName (fun k q => 100 * k + q.ty.ptr)
      [.enter 1, .alloc (.base 3) (oneName.plain 0 (.base 3)), .castToSlice 0, .enter 2, .realloc 0, .selector 7 0, .drop 0]
      (SelSt.start 0) with
    | .ok _ s => some (s.log.drop 3, s.live)
    | _ => none) =
    some ([.regot 115 0 1, .told 1 ⟨.none, ⟨77, [77]⟩⟩, .back 115 1], []) := by decide +kernel

example : (∀ x y t, oneName.addr x t = oneName.addr y t) ∧ oneName.addr 0 (.slice (.base 3)) ≠ oneName.addr 0 (.base 3) ∧
    oneName.addr 0 (.fence (.base 3)) ≠ oneName.addr 0 (.base 3) := ⟨fun _ _ _ => rfl, by decide, by decide⟩

example : ∀ o ∈ ([.box 0 (.base 1), .enter 3, .boxWith 0 (.base 1) (oneName.marker 0 .str), .selector 1 1, .drop 0] :
    List (SelOp Nat)), o.typed ∧ o.single ∧ o.keeps := by
  simp [SelOp.typed, SelOp.single, SelOp.keeps]

end Lokky
