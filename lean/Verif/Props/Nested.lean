import Verif.Props.VecHistory
import Verif.Proofs.Nested

/-!
# C137: vectors inside vectors

`NReaches c co N0 hi ho N`: a client that keeps vectors in vectors saw the history `hi` of the inner
vectors and `ho` of the outer ones and arrived at `N` (Verif/Model/Nested.lean). The elements of the
outer vectors are the inner vectors.
-/

namespace Lokky
variable {α : Type} {c : Cfg α} {co : Cfg Nat} {N0 N : Nest α} {hi : Spec.History α}
  {ho : Spec.History Nat}

/-- C137. Every inner vector that exists has exactly one owner: it is held by the client, or it is
one element of one outer vector; and whatever an outer vector shows is an inner vector that
exists. -/
theorem C137_owner (hs : c.size ≠ 0) (hd : ∀ a, c.dropPanics a = false)
    (hso : co.size ≠ 0) (hdo : ∀ a, co.dropPanics a = false) (h0 : N0.Initial)
    (h : NReaches c co N0 hi ho N) :
    ∃ L : Spec.Lists Nat,
      (∀ x : Nat, N.outer.Alive x ↔ ∃ l, L[x]? = some (some l)) ∧
      (∀ (x : Nat) (v : VecH) (l : List Nat), N.outer.vecs[x]? = some (some v) →
        L[x]? = some (some l) → Vec.asSlice co ⟨v, N.outer.w⟩ = .ok l ⟨v, N.outer.w⟩) ∧
      (N.held ++ L.contents).Nodup ∧
      ∀ x, x ∈ N.held ++ L.contents ↔ N.inner.Alive x := by
  obtain ⟨Li, Lo, i⟩ := h.inv hs hd hso hdo h0
  refine ⟨Lo, i.po.alive_iff, ?_, i.nodup, i.owned⟩
  intro x v l hv hl
  obtain ⟨l', hl', hr⟩ := i.po.rep x v hv
  rw [hl] at hl'
  cases hl'
  exact asSlice_spec (s := ⟨v, N.outer.w⟩) hso hr

/-- C137. Every permitted call on an inner vector, wherever it is, returns or panics. -/
theorem C137_inner_safe (hs : c.size ≠ 0) (hd : ∀ a, c.dropPanics a = false)
    (hso : co.size ≠ 0) (hdo : ∀ a, co.dropPanics a = false) (h0 : N0.Initial)
    (h : NReaches c co N0 hi ho N) (cmd : Spec.Cmd α) (hl : cmd.Legal c N.inner) :
    (∃ ev I', Happens c N.inner cmd ev I') ∧ ∀ u, runCmd c cmd N.inner ≠ .ub u := by
  obtain ⟨Li, Lo, i⟩ := h.inv hs hd hso hdo h0
  exact C02_vec_memory_safe hs hd h0.1 i.ri cmd hl

/-- C137. Every permitted call on an outer vector returns or panics, and the destructors of the
inner vectors it drops all find their vector alive and return. -/
theorem C137_outer_safe (hs : c.size ≠ 0) (hd : ∀ a, c.dropPanics a = false)
    (hso : co.size ≠ 0) (hdo : ∀ a, co.dropPanics a = false) (h0 : N0.Initial)
    (h : NReaches c co N0 hi ho N) (cmd : Spec.Cmd Nat) (hl : cmd.Legal co N.outer)
    (hp : cmd.Plain) (rest : List Nat) (hh : N.held.Perm (cmd.given ++ rest)) :
    (∃ ev O', Happens co N.outer cmd ev O') ∧ (∀ u, runCmd co cmd N.outer ≠ .ub u) ∧
    ∀ ev O', Happens co N.outer cmd ev O' →
      ∃ I', dropEach c (droppedBy N.outer O') N.inner = .ok () I' := by
  obtain ⟨Li, Lo, i⟩ := h.inv hs hd hso hdo h0
  obtain ⟨a, b⟩ := C02_vec_memory_safe hso hdo h0.2.1 i.ro cmd hl
  refine ⟨a, b, ?_⟩
  intro ev O' he
  obtain ⟨I', _, _, k, _⟩ := i.outer hs hd hso hdo hl hp hh he
  exact ⟨I', k⟩

/-- C137. Every inner vector ever made either exists, or was dropped exactly once, by the client or
by an outer vector. -/
theorem C137_once (hs : c.size ≠ 0) (hd : ∀ a, c.dropPanics a = false)
    (hso : co.size ≠ 0) (hdo : ∀ a, co.dropPanics a = false) (h0 : N0.Initial)
    (h : NReaches c co N0 hi ho N) :
    (dropsOf hi).Nodup ∧
    ∀ x < N.inner.vecs.length, (x ∈ dropsOf hi ↔ ¬ N.inner.Alive x) := by
  obtain ⟨Li, Lo, i⟩ := h.inv hs hd hso hdo h0
  obtain ⟨L, made, h1, h2⟩ := i.ri.inv hs hd h0.1
  obtain ⟨d1, d2⟩ := h1.dropsOf
  refine ⟨d1, fun x hx => ?_⟩
  rw [d2 x, h2.alive_iff, ← h2.len]
  exact ⟨fun h => h.2, fun h => ⟨hx, h⟩⟩

/-- C137. The elements of the inner vectors are kept account of across both levels: what was handed
to the inner vectors or made by callbacks is what was dropped, given back or is stored. -/
theorem C137_elements (hs : c.size ≠ 0) (hd : ∀ a, c.dropPanics a = false)
    (hso : co.size ≠ 0) (hdo : ∀ a, co.dropPanics a = false) (h0 : N0.Initial)
    (h : NReaches c co N0 hi ho N) :
    ∃ L made, Spec.Runs c.cloneRel hi L made N.inner.w.log.drops ∧
      (∀ (x : Nat) (v : VecH), N.inner.vecs[x]? = some (some v) →
        ∃ l, L[x]? = some (some l) ∧ Vec.asSlice c ⟨v, N.inner.w⟩ = .ok l ⟨v, N.inner.w⟩) ∧
      (hi.given ++ made).Perm (N.inner.w.log.drops ++ hi.taken ++ Spec.Lists.contents L) := by
  obtain ⟨Li, Lo, i⟩ := h.inv hs hd hso hdo h0
  exact C03_owned_once hs hd h0.1 i.ri

/-- C137. Once the outer vectors are dropped and the client holds no inner vector, no inner vector
exists, both heaps are empty, and every element handed to an inner vector or made by a callback was
dropped or given back exactly once. -/
theorem C137_end (hs : c.size ≠ 0) (hd : ∀ a, c.dropPanics a = false)
    (hso : co.size ≠ 0) (hdo : ∀ a, co.dropPanics a = false) (h0 : N0.Initial)
    (h : NReaches c co N0 hi ho N) (hheld : N.held = []) (hout : ∀ x, ¬ N.outer.Alive x) :
    (∀ x, ¬ N.inner.Alive x) ∧ (∀ p, N.inner.w.heap p = none) ∧ (∀ p, N.outer.w.heap p = none) ∧
    ∃ made, (∃ L, Spec.Runs c.cloneRel hi L made N.inner.w.log.drops) ∧
      (hi.given ++ made).Perm (N.inner.w.log.drops ++ hi.taken) := by
  obtain ⟨Li, Lo, i⟩ := h.inv hs hd hso hdo h0
  have empty : ∀ {β : Type} (L : Spec.Lists β), (∀ x, ¬ L.Has x) → L.contents = [] := by
    intro β L hL
    simp only [Spec.Lists.contents, List.flatMap_eq_nil_iff]
    intro o ho
    obtain ⟨x, hx⟩ := List.getElem?_of_mem ho
    cases o with
    | none => rfl
    | some l => exact (hL x ⟨l, hx⟩).elim
  have gone : ∀ x, ¬ N.inner.Alive x := by
    intro x hx
    have := (i.owned x).mpr hx
    rw [hheld, empty Lo (fun y hy => hout y ((i.po.alive_iff y).mpr hy))] at this
    simp at this
  have none' : ∀ {β : Type} (P : Pool β), (∀ x, ¬ P.Alive x) →
      ∀ x : Nat, P.vecs[x]? ≠ none → P.vecs[x]? = some none := by
    intro β P hP x hx
    cases e : P.vecs[x]? with
    | none => exact (hx e).elim
    | some o =>
      cases o with
      | none => rfl
      | some v => exact (hP x ⟨v, e⟩).elim
  refine ⟨gone, (C04_no_leak hs hd h0.1 i.ri).2.2 (none' _ gone),
    (C04_no_leak hso hdo h0.2.1 i.ro).2.2 (none' _ hout), ?_⟩
  obtain ⟨L, made, h1, h2⟩ := i.ri.inv hs hd h0.1
  refine ⟨made, ⟨L, h1⟩, ?_⟩
  have := h1.conserve
  rwa [empty L (fun y hy => gone y ((h2.alive_iff y).mpr hy)), List.append_nil] at this

/-! ## A non-trivial case

Three inner vectors are made and filled and moved into an outer vector; one is filled further where
it is; the outer vector is truncated to two elements, one of them is taken out and dropped by the
client, and the outer vector is dropped. -/

/-- The calls of the example. -/
def nestProg : List (NCmd Nat) :=
  [.inner (.fromArray [1, 2]), .inner .new, .inner (.fromArray [3]), .outer .new,
    .outer (.on 0 (.push 1)), .outer (.on 0 (.insert 0 0)), .outer (.on 0 (.push 2)),
    .inner (.on 1 (.push 4)), .inner (.append 1 2), .inner (.on 2 (.push 5)),
    .outer (.on 0 (.truncate 2)), .outer (.on 0 (.swapRemove 0)), .inner (.drop 0),
    .outer (.drop 0)]

/-- What is left. -/
def nestSummary (r : Option (Nest Nat)) : Option (List Nat × List Nat × List Nat × Nat × Nat) :=
  r.map fun N => (N.held, N.outer.w.log.drops, N.inner.w.log.drops,
    N.inner.vecs.length, (N.inner.vecs.filter Option.isSome).length)

example : nestSummary (nestAll cfg64 cfg64 nestProg ⟨⟨[], world0⟩, ⟨[], world0⟩, []⟩) =
    some ([], [2, 1], [5, 1, 2, 4, 3], 3, 0) := by decide +kernel

example : nestSummary (nestAll cfg64 cfg64 (nestProg.take 12) ⟨⟨[], world0⟩, ⟨[], world0⟩, []⟩) =
    some ([0], [2], [5], 3, 2) := by decide +kernel

example : ∃ hi ho N, NReaches cfg64 cfg64 ⟨⟨[], world0⟩, ⟨[], world0⟩, []⟩ hi ho N ∧
    (⟨⟨[], world0⟩, ⟨[], world0⟩, []⟩ : Nest Nat).Initial ∧ N.held = [] ∧
    N.inner.w.log.drops = [5, 1, 2, 4, 3] := by
  have hsum : nestSummary (nestAll cfg64 cfg64 nestProg ⟨⟨[], world0⟩, ⟨[], world0⟩, []⟩) =
    some ([], [2, 1], [5, 1, 2, 4, 3], 3, 0) := by decide +kernel
  cases h : nestAll cfg64 cfg64 nestProg ⟨⟨[], world0⟩, ⟨[], world0⟩, []⟩ with
  | none => rw [h] at hsum; cases hsum
  | some N =>
    rw [h] at hsum
    simp only [nestSummary, Option.map_some, Option.some.injEq, Prod.mk.injEq] at hsum
    obtain ⟨hi, ho, hr⟩ := nestAll_reaches nestProg .start h
    exact ⟨hi, ho, N, hr, ⟨⟨rfl, fun _ => rfl, rfl⟩, ⟨rfl, fun _ => rfl, rfl⟩, rfl⟩,
      hsum.1, hsum.2.2.1⟩

end Lokky
