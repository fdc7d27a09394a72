import Verif.Props.Witness
import Verif.Proofs.SmallPool
import Verif.Proofs.SmallConserve

/-!
# C28–C30, C39: client programs with any number of small vectors

`SReaches c P0 hist P` says: a client that calls the crate's functions in some order, catching every
panic, sees the history `hist` (calls, returned values, panics, refusals) and arrives in state `P`.
`Spec.SRuns` is the specification on lists (Verif/Spec/Small.lean). The permitted calls
(`Spec.SCmd.Legal`) leave out those with which inline vectors misbehave (C32–C35, C37, C38, C79), so C28
and C30 hold in part only.
-/

namespace Lokky
variable {α : Type} {c : Cfg α} {P0 P : SPool α} {hist : Spec.SHistory α}

/-- C28, the part that holds: every history of permitted calls is a history of the list
specification, and afterwards every vector shows exactly the list the specification says. Missing:
the calls excluded by `Legal`. -/
theorem C28_small_is_list_partial (hs : c.size ≠ 0) (hd : ∀ a, c.dropPanics a = false)
    (h0 : P0.Initial) (h : SReaches c P0 hist P) :
    ∃ L made, Spec.SRuns c.cloneRel hist L made P.w.log.drops ∧
      (∀ x : Nat, (∃ v, P.vecs[x]? = some (some v)) ↔ ∃ l, L[x]? = some (some l)) ∧
      ∀ (x : Nat) (v : SmallH α) (l : List α), P.vecs[x]? = some (some v) → L[x]? = some (some l) →
        Small.asSlice c ⟨v, P.w⟩ = .ok l ⟨v, P.w⟩ ∧ Small.lenOf v = l.length := by
  obtain ⟨L, made, h1, h2⟩ := h.inv hs hd h0
  refine ⟨L, made, h1, fun x => ⟨?_, ?_⟩, ?_⟩
  · rintro ⟨v, hv⟩
    obtain ⟨l, hl, _⟩ := h2.rep x v hv
    exact ⟨l, hl⟩
  · rintro ⟨l, hl⟩
    exact h2.live x l hl
  · intro x v l hv hl
    obtain ⟨l', hl', hr⟩ := h2.rep x v hv
    rw [hl] at hl'
    cases hl'
    exact ⟨sasSlice_spec (s := ⟨v, P.w⟩) hs hr, hr.lenOf⟩

/-- C30, the part that holds: in every reachable state every permitted call is free of undefined
behaviour: it returns or panics. Missing: the calls excluded by `Legal`. -/
theorem C30_memory_safe_partial (hs : c.size ≠ 0) (hd : ∀ a, c.dropPanics a = false)
    (h0 : P0.Initial) (h : SReaches c P0 hist P) (cmd : Spec.SCmd α) (hl : cmd.Legal c P) :
    (∃ ev P', SHappens c P cmd ev P') ∧ ∀ u, runSCmd c cmd P ≠ .ub u := by
  obtain ⟨L, made, h1, h2⟩ := h.inv hs hd h0
  have key := runSCmd_spec hs hd h2 cmd hl
  refine ⟨?_, fun u => key.noUB u⟩
  cases hr : runSCmd c cmd P with
  | ok o P' => exact ⟨_, P', .ret hr⟩
  | panic P' => exact ⟨_, P', .panic hr⟩
  | abort =>
    rw [hr] at key
    obtain ⟨a, ha⟩ := key
    rw [hd a] at ha; cases ha
  | ub u => rw [hr] at key; exact key.elim

/-- C30, the part that holds: what was handed to the vectors or created by callbacks is, counting
repetitions, exactly what was dropped, given back, or is still stored. Missing: the calls excluded by
`Legal`. -/
theorem C30_owned_once_partial (hs : c.size ≠ 0) (hd : ∀ a, c.dropPanics a = false)
    (h0 : P0.Initial) (h : SReaches c P0 hist P) :
    ∃ L made, Spec.SRuns c.cloneRel hist L made P.w.log.drops ∧
      (∀ (x : Nat) (v : SmallH α), P.vecs[x]? = some (some v) →
        ∃ l, L[x]? = some (some l) ∧ Small.asSlice c ⟨v, P.w⟩ = .ok l ⟨v, P.w⟩) ∧
      (hist.given ++ made).Perm (P.w.log.drops ++ hist.taken ++ Spec.Lists.contents L) := by
  obtain ⟨L, made, h1, h2⟩ := h.inv hs hd h0
  refine ⟨L, made, h1, ?_, h1.conserve⟩
  intro x v hv
  obtain ⟨l, hl, hr⟩ := h2.rep x v hv
  exact ⟨l, hl, sasSlice_spec (s := ⟨v, P.w⟩) hs hr⟩

/-- C30, the part that holds: a block is live iff it is the buffer of exactly one small vector
stored on the heap, of the size and owner the vector will give back; if all vectors are dropped no block is
left. Missing: the calls excluded by `Legal`. -/
theorem C30_no_leak_partial (hs : c.size ≠ 0) (hd : ∀ a, c.dropPanics a = false)
    (h0 : P0.Initial) (h : SReaches c P0 hist P) :
    (∀ p, P.w.heap p ≠ none ↔
      ∃ x : Nat, (∃ v k m, P.vecs[x]? = some (some ⟨k, .heap v, m⟩) ∧ v.ptr = some p) ∧
        ∀ y : Nat, (∃ v k m, P.vecs[y]? = some (some ⟨k, .heap v, m⟩) ∧ v.ptr = some p) → y = x) ∧
    (∀ (x k : Nat) (v : VecH) (m : Marker), P.vecs[x]? = some (some ⟨k, .heap v, m⟩) →
      (v.ptr = none ↔ v.cap = 0) ∧
      ∀ p, v.ptr = some p → ∃ b, P.w.heap p = some b ∧ b.alloc = v.alloc ∧
        b.bytes = v.cap * c.size) ∧
    ((∀ x : Nat, P.vecs[x]? ≠ none → P.vecs[x]? = some none) → ∀ p, P.w.heap p = none) := by
  obtain ⟨L, made, h1, h2⟩ := h.inv hs hd h0
  have hlive : ∀ (x k : Nat) (v : VecH) (m : Marker) (p : Nat),
      P.vecs[x]? = some (some ⟨k, .heap v, m⟩) → v.ptr = some p →
      ∃ b, P.w.heap p = some b ∧ b.alloc = v.alloc ∧ b.bytes = v.cap * c.size := by
    intro x k v m p hv hp
    obtain ⟨l, _, hr⟩ := h2.rep x _ hv
    rcases (hr.heap v rfl).buf with ⟨h3, _⟩ | ⟨q, b, _, hq, hb, h4, h5, _⟩
    · rw [hp] at h3; cases h3
    · rw [hp] at hq; cases hq
      exact ⟨b, hb, h4, h5⟩
  refine ⟨fun p => ⟨?_, ?_⟩, ?_, ?_⟩
  · intro hp
    obtain ⟨b, hb⟩ := Option.ne_none_iff_exists'.mp hp
    obtain ⟨x, ⟨n, st, m⟩, hx, hv⟩ := h2.owned p b hb
    cases st with
    | stack _ _ => simp [SmallH.ptr] at hv
    | heap v =>
      refine ⟨x, ⟨v, n, m, hx, hv⟩, ?_⟩
      rintro y ⟨v', n', m', hy, hv'⟩
      exact h2.inj y x _ _ p hy hx hv' hv
  · rintro ⟨x, ⟨v, n, m, hx, hv⟩, _⟩
    obtain ⟨b, hb, _⟩ := hlive x n v m p hx hv
    simp [hb]
  · intro x k v m hv
    refine ⟨?_, fun p hp => hlive x k v m p hv hp⟩
    obtain ⟨l, _, hr⟩ := h2.rep x _ hv
    rcases (hr.heap v rfl).buf with ⟨h3, h4, _⟩ | ⟨q, b, _, hq, _, _, _, _, _, h5, _⟩
    · simp [h3, h4]
    · simp [hq]; omega
  · intro hall p
    cases hp : P.w.heap p with
    | none => rfl
    | some b =>
      obtain ⟨x, v, hx, hv⟩ := h2.owned p b hp
      have := hall x (by simp [hx])
      rw [hx] at this; cases this

/-! ## A non-trivial case

Two small vectors of inline size 5: the first is filled beyond its inline size, so that it moves to the
heap; then elements are removed and inserted, it is split, cloned, appended and turned into a `Vec` and
back. -/

/-- What a history returned and what the vectors hold afterwards. -/
def ssummary (r : Option (Spec.SHistory Nat × SPool Nat)) :
    Option (List (Spec.Event Nat) × List (Option (List (Option Nat))) × List Nat) :=
  r.map fun r => (r.1.map Prod.snd,
    r.2.vecs.map (Option.map fun v => (Small.slotsOf v r.2.w).take (Small.lenOf v)),
    r.2.w.log.drops)

/-- The calls of the example. -/
def sprog : List (Spec.SCmd Nat) :=
  [.new 5, .on 0 (.extendFromSlice [1, 2, 3]), .on 0 (.insert 1 9), .on 0 (.remove 0),
    .on 0 (.extendFromSlice [4, 5, 6]), .on 0 (.swapRemove 1), .splitOff 0 5 3, .clone 0,
    .append 1 2, .viaVec 1 2, .on 3 (.truncate 1), .drop 0]

example : ssummary (srunAll cfg64 sprog [] ⟨[], world0⟩) = some
    ([.ret .unit, .ret .unit, .ret .unit, .ret (.val 1), .ret .unit, .ret (.val 2),
      .ret .unit, .ret .unit, .ret .unit, .ret .unit, .ret .unit, .ret .unit],
     [none, none, some [], some [some 4]],
     [5, 9, 6, 3, 9, 6, 3]) := by decide +kernel

example : ∃ hist P, SReaches cfg64 ⟨[], world0⟩ hist P ∧ (⟨[], world0⟩ : SPool Nat).Initial ∧
    hist.length = 12 := by
  cases h : srunAll cfg64 sprog [] ⟨[], world0⟩ with
  | none =>
    have : (srunAll cfg64 sprog [] ⟨[], world0⟩).isSome = true := by decide +kernel
    rw [h] at this; cases this
  | some r =>
    have : (srunAll cfg64 sprog [] ⟨[], world0⟩).map (fun r => r.1.length) = some 12 := by
      decide +kernel
    rw [h] at this
    exact ⟨r.1, r.2, srunAll_reaches sprog .start h, ⟨rfl, fun _ => rfl, rfl⟩, by simpa using this⟩

end Lokky
