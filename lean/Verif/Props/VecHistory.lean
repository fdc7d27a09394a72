import Verif.Props.Witness
import Verif.Proofs.Conserve

/-!
# C01–C04: client programs with any number of vectors

`Reaches c P0 hist P` says: a client that calls the crate's functions in some order, catching every
panic, sees the history `hist` (calls, returned values, panics, refusals) and arrives in state `P`.
`Spec.Runs` is the specification on lists (Verif/Spec/Lists.lean).
-/

namespace Lokky
variable {α : Type} {c : Cfg α} {P0 P : Pool α} {hist : Spec.History α}

/-- C01. Every history seen by a client is a history of the list specification, and afterwards
every vector shows exactly the list the specification says. -/
theorem C01_vec_is_list (hs : c.size ≠ 0) (hd : ∀ a, c.dropPanics a = false) (h0 : P0.Initial)
    (h : Reaches c P0 hist P) :
    ∃ L made, Spec.Runs c.cloneRel hist L made P.w.log.drops ∧
      (∀ x : Nat, (∃ v, P.vecs[x]? = some (some v)) ↔ ∃ l, L[x]? = some (some l)) ∧
      ∀ (x : Nat) (v : VecH) (l : List α), P.vecs[x]? = some (some v) → L[x]? = some (some l) →
        Vec.asSlice c ⟨v, P.w⟩ = .ok l ⟨v, P.w⟩ ∧ v.len = l.length := by
  obtain ⟨L, made, h1, h2⟩ := h.inv hs hd h0
  refine ⟨L, made, h1, fun x => ⟨?_, ?_⟩, ?_⟩
  · rintro ⟨v, hv⟩
    obtain ⟨l, hl, _⟩ := h2.rep x v hv
    exact ⟨l, hl⟩
  · rintro ⟨l, hl⟩
    exact h2.live x l hl
  · intro x v l hv hl
    obtain ⟨l', hl', hr⟩ := h2.rep x v hv
    rw [hl] at hl'
    cases hl'
    exact ⟨asSlice_spec (s := ⟨v, P.w⟩) hs hr, hr.len⟩

/-- C01. The specification leaves no freedom to panic: a call on a list whose index is in range and
whose callbacks do not panic returns, unless the allocator refuses. -/
theorem C01_no_spurious_panic {cl : Spec.CloneRel α} {o : Spec.Op α} {ev : Spec.Event α}
    {l l' made dropped : List α} (h : Spec.Edit cl o ev l l' made dropped) (hg : o.Good cl l)
    (hr : ev.refused = false) : ∃ out, ev.out = some out := h.returns hg hr

/-- C02. In every reachable state every permitted call is free of undefined behaviour: it returns
or panics. -/
theorem C02_vec_memory_safe (hs : c.size ≠ 0) (hd : ∀ a, c.dropPanics a = false) (h0 : P0.Initial)
    (h : Reaches c P0 hist P) (cmd : Spec.Cmd α) (hl : cmd.Legal c P) :
    (∃ ev P', Happens c P cmd ev P') ∧ ∀ u, runCmd c cmd P ≠ .ub u := by
  obtain ⟨L, made, h1, h2⟩ := h.inv hs hd h0
  have key := runCmd_spec hs hd h2 cmd hl
  refine ⟨?_, fun u => key.noUB u⟩
  cases hr : runCmd c cmd P with
  | ok o P' => exact ⟨_, P', .ret hr⟩
  | panic P' => exact ⟨_, P', .panic hr⟩
  | abort =>
    rw [hr] at key
    obtain ⟨a, ha⟩ := key
    rw [hd a] at ha; cases ha
  | ub u => rw [hr] at key; exact key.elim

/-- C03. What was handed to the vectors or created by callbacks is, counting repetitions, exactly
what was dropped, given back, or is still stored. -/
theorem C03_owned_once (hs : c.size ≠ 0) (hd : ∀ a, c.dropPanics a = false) (h0 : P0.Initial)
    (h : Reaches c P0 hist P) :
    ∃ L made, Spec.Runs c.cloneRel hist L made P.w.log.drops ∧
      (∀ (x : Nat) (v : VecH), P.vecs[x]? = some (some v) →
        ∃ l, L[x]? = some (some l) ∧ Vec.asSlice c ⟨v, P.w⟩ = .ok l ⟨v, P.w⟩) ∧
      (hist.given ++ made).Perm (P.w.log.drops ++ hist.taken ++ Spec.Lists.contents L) := by
  obtain ⟨L, made, h1, h2⟩ := h.inv hs hd h0
  refine ⟨L, made, h1, ?_, h1.conserve⟩
  intro x v hv
  obtain ⟨l, hl, hr⟩ := h2.rep x v hv
  exact ⟨l, hl, asSlice_spec (s := ⟨v, P.w⟩) hs hr⟩

/-- C03. In particular, if the elements entering are distinct, no element is in two places. -/
theorem C03_no_duplicate {cl : Spec.CloneRel α} {L : Spec.Lists α} {made dropped : List α}
    (h : Spec.Runs cl hist L made dropped) (hn : (hist.given ++ made).Nodup) :
    (dropped ++ hist.taken ++ Spec.Lists.contents L).Nodup :=
  h.conserve.nodup_iff.mp hn

/-- C04. A block is live iff it is the buffer of exactly one live vector; its size and owner are
those the vector will give back; a vector has a buffer iff its capacity is not zero. -/
theorem C04_no_leak (hs : c.size ≠ 0) (hd : ∀ a, c.dropPanics a = false) (h0 : P0.Initial)
    (h : Reaches c P0 hist P) :
    (∀ p, P.w.heap p ≠ none ↔
      ∃ x : Nat, (∃ v : VecH, P.vecs[x]? = some (some v) ∧ v.ptr = some p) ∧
        ∀ y : Nat, (∃ v : VecH, P.vecs[y]? = some (some v) ∧ v.ptr = some p) → y = x) ∧
    (∀ (x : Nat) (v : VecH), P.vecs[x]? = some (some v) →
      (v.ptr = none ↔ v.cap = 0) ∧
      ∀ p, v.ptr = some p → ∃ b, P.w.heap p = some b ∧ b.alloc = v.alloc ∧
        b.bytes = v.cap * c.size) ∧
    ((∀ x : Nat, P.vecs[x]? ≠ none → P.vecs[x]? = some none) → ∀ p, P.w.heap p = none) := by
  obtain ⟨L, made, h1, h2⟩ := h.inv hs hd h0
  have hlive : ∀ (x : Nat) (v : VecH) (p : Nat), P.vecs[x]? = some (some v) → v.ptr = some p →
      ∃ b, P.w.heap p = some b ∧ b.alloc = v.alloc ∧ b.bytes = v.cap * c.size := by
    intro x v p hv hp
    obtain ⟨l, _, hr⟩ := h2.rep x v hv
    rcases hr.buf with ⟨h3, _⟩ | ⟨q, b, _, hq, hb, h4, h5, _⟩
    · rw [hp] at h3; cases h3
    · rw [hp] at hq; cases hq
      exact ⟨b, hb, h4, h5⟩
  refine ⟨fun p => ⟨?_, ?_⟩, ?_, ?_⟩
  · intro hp
    obtain ⟨b, hb⟩ := Option.ne_none_iff_exists'.mp hp
    obtain ⟨x, v, hx, hv⟩ := h2.owned p b hb
    refine ⟨x, ⟨v, hx, hv⟩, ?_⟩
    rintro y ⟨v', hy, hv'⟩
    exact h2.inj y x v' v p hy hx hv' hv
  · rintro ⟨x, ⟨v, hx, hv⟩, _⟩
    obtain ⟨b, hb, _⟩ := hlive x v p hx hv
    simp [hb]
  · intro x v hv
    refine ⟨?_, fun p hp => hlive x v p hv hp⟩
    obtain ⟨l, _, hr⟩ := h2.rep x v hv
    rcases hr.buf with ⟨h3, h4, _⟩ | ⟨q, b, _, hq, _, _, _, _, _, h5, _⟩
    · simp [h3, h4]
    · simp [hq]; omega
  · intro hall p
    cases hp : P.w.heap p with
    | none => rfl
    | some b =>
      obtain ⟨x, v, hx, hv⟩ := h2.owned p b hp
      have := hall x (by simp [hx])
      rw [hx] at this; cases this

/-! ## A non-trivial case

Two vectors of 8-byte elements on a 64-bit machine: an element is pushed, a vector is made from an
array and appended to the first, an element is removed, and the second vector is dropped. -/

/-- What a history returned and what the vectors hold afterwards. -/
def summary (r : Option (Spec.History Nat × Pool Nat)) :
    Option (List (Spec.Event Nat) × List (Option (List (Option Nat))) × List Nat) :=
  r.map fun r => (r.1.map Prod.snd, r.2.vecs.map (Option.map fun v => (r.2.w.slots v.ptr).take v.len),
    r.2.w.log.drops)

/-- The calls of the example. -/
def prog : List (Spec.Cmd Nat) :=
  [.new, .on 0 (.push 10), .fromArray [20, 30], .append 0 1, .on 0 (.remove 1), .clone 0,
    .on 1 (.push 40), .on 2 (.insert 1 50), .on 2 .pop, .drop 1]

example : summary (runAll cfg64 prog [] ⟨[], world0⟩) = some
    ([.ret .unit, .ret .unit, .ret .unit, .ret .unit, .ret (.val 20), .ret .unit, .ret .unit,
      .ret .unit, .ret (.opt (some 30)), .ret .unit],
     [some [some 10, some 30], none, some [some 10, some 50]], [40]) := by decide +kernel

example : ∃ hist P, Reaches cfg64 ⟨[], world0⟩ hist P ∧ (⟨[], world0⟩ : Pool Nat).Initial ∧
    hist.length = 10 := by
  cases h : runAll cfg64 prog [] ⟨[], world0⟩ with
  | none =>
    have : (runAll cfg64 prog [] ⟨[], world0⟩).isSome = true := by decide +kernel
    rw [h] at this; cases this
  | some r =>
    have : (runAll cfg64 prog [] ⟨[], world0⟩).map (fun r => r.1.length) = some 10 := by
      decide +kernel
    rw [h] at this
    exact ⟨r.1, r.2, runAll_reaches prog .start h, ⟨rfl, fun _ => rfl, rfl⟩, by simpa using this⟩

end Lokky
