import Verif.Proofs.VecPrograms
import Verif.Props.VecPanicHistory

/-!
# C124: programs with vectors, by-value iterators and boxed slices
-/

namespace Lokky
variable {α : Type} {c : Cfg α} {X0 X : XPool α} {hist : Spec.XHistory α}

/-- C124, the part that holds: whatever the program did before and whichever destructors panicked, the next
call has no undefined behaviour. It ends, or, if a destructor panics during a panic, aborts the program.
Missing, because it is false: `clear` when a destructor panics (C21), `next_back` on an exhausted iterator
(C15), boxed slices of empty vectors (C22, C25). -/
theorem C124_safe_partial (hs : c.size ≠ 0) (h0 : X0.Initial) (h : XReaches c X0 hist X)
    {cmd : Spec.XCmd α} (hl : cmd.Legal c X) :
    ((∃ ev X', XHappens c X cmd ev X') ∨ (runX c cmd X = .abort ∧ ∃ a, c.dropPanics a = true)) ∧
      ∀ u, runX c cmd X ≠ .ub u := by
  obtain ⟨S, made, leaked, h1, lost, G, K, h2⟩ := h.inv hs h0
  have key := runX_spec hs h2 cmd hl
  cases hr : runX c cmd X with
  | ok o X' => exact ⟨Or.inl ⟨_, _, .ret hr⟩, fun u e => nomatch e⟩
  | panic X' => exact ⟨Or.inl ⟨_, _, .panic hr⟩, fun u e => nomatch e⟩
  | abort => rw [hr] at key; exact ⟨Or.inr ⟨rfl, key⟩, fun u e => nomatch e⟩
  | ub u => rw [hr] at key; exact key.elim

/-- C124, the part that holds: the history is one of the specification on lists; every vector, iterator and
boxed slice shows what it has there; and every element handed over or made by a callback is in exactly one
place — dropped, handed back, stored, or left behind by a panic. -/
theorem C124_owned_once_partial (hs : c.size ≠ 0) (h0 : X0.Initial) (h : XReaches c X0 hist X) :
    ∃ S made leaked, Spec.XRuns c.cloneRel c.dropRel hist S made X.pool.w.log.drops leaked ∧
      (∀ (x : Nat) v, X.pool.vecs[x]? = some (some v) → ∃ l, S.vecs[x]? = some (some l) ∧
        Vec.asSlice c ⟨v, X.pool.w⟩ = .ok l ⟨v, X.pool.w⟩ ∧ v.len = l.length) ∧
      (∀ x it, X.objs x = some (.iter it) → ∃ m, (x, .iter m) ∈ S.objs ∧
        Vec.iterAsSlice c ⟨it, X.pool.w⟩ = .ok m ⟨it, X.pool.w⟩) ∧
      (∀ x b, X.objs x = some (.box b) → ∃ m, (x, .box m) ∈ S.objs ∧ b.len = m.length ∧
        Vec.asSlice c ⟨Vec.ofBoxedSlice b, X.pool.w⟩ = .ok m ⟨Vec.ofBoxedSlice b, X.pool.w⟩) ∧
      (hist.given ++ made).Perm (X.pool.w.log.drops ++ hist.taken ++ S.contents ++ leaked) := by
  obtain ⟨S, made, leaked, h1, lost, G, K, h2⟩ := h.inv hs h0
  have rep : ∀ x o, X.objs x = some o → ∃ l, Rep c o.vec X.pool.w l ∧ o.Shows l ∧ (x, o.rest l) ∈ S.objs := by
    intro x o hx
    obtain ⟨_, k2, l, k3, k4, k5⟩ := h2.obj x o hx
    obtain ⟨l', e1, hr⟩ := h2.inv.inv.rep x _ k2
    obtain rfl : l = l' := by rw [k3] at e1; simpa using e1
    exact ⟨l, hr, k4, k5⟩
  refine ⟨S, made, leaked, h1, ?_, ?_, ?_, h1.conserve⟩
  · intro x v hx
    obtain ⟨l, hl, _, hr⟩ := h2.inv.rep hx
    exact ⟨l, hl, asSlice_spec (s := ⟨v, X.pool.w⟩) hs hr, hr.len⟩
  · intro x it hx
    obtain ⟨l, hr, k4, k5⟩ := rep x _ hx
    exact ⟨_, k5, iterAsSlice_eq (s := ⟨it, X.pool.w⟩) hs ⟨⟨l, hr, k4, rfl⟩, h2.inv.inv.wf⟩⟩
  · intro x b hx
    obtain ⟨l, hr, k4, k5⟩ := rep x _ hx
    exact ⟨l, k5, hr.len, asSlice_spec (s := ⟨Vec.ofBoxedSlice b, X.pool.w⟩) hs hr⟩

/-- C124: the objects of the specification are those of the program, none listed twice. -/
theorem C124_objects_partial (hs : c.size ≠ 0) (h0 : X0.Initial) (h : XReaches c X0 hist X) :
    ∃ S made leaked, Spec.XRuns c.cloneRel c.dropRel hist S made X.pool.w.log.drops leaked ∧
      (S.objs.map Prod.fst).Nodup ∧ (∀ x, x ∈ S.objs.map Prod.fst ↔ X.objs x ≠ none) ∧
      ∀ x : Nat, X.pool.vecs[x]? = some none ↔ S.vecs[x]? = some none := by
  obtain ⟨S, made, leaked, h1, lost, G, K, h2⟩ := h.inv hs h0
  refine ⟨S, made, leaked, h1, h2.nodup, ?_, ?_⟩
  · intro x
    constructor
    · intro hx
      obtain ⟨⟨y, r⟩, hy, rfl⟩ := List.mem_map.mp hx
      obtain ⟨o, ho⟩ := h2.key y r hy
      simp [ho]
    · intro hx
      obtain ⟨o, ho⟩ := Option.ne_none_iff_exists'.mp hx
      obtain ⟨_, _, l, _, _, h5⟩ := h2.obj x o ho
      exact List.mem_map.mpr ⟨_, h5, rfl⟩
  · intro x
    refine ⟨h2.inv.gone x, fun hx => ?_⟩
    have hlen : x < X.pool.vecs.length := by
      have h3 := h2.inv.len
      have h4 := h2.inv.lenL
      have h5 := h2.inv.inv.len
      have h6 := get_lt hx
      simp only at h5
      omega
    cases hv : X.pool.vecs[x]? with
    | none => rw [List.getElem?_eq_none_iff] at hv; omega
    | some o =>
      cases o with
      | none => rfl
      | some v =>
        obtain ⟨l, hl, _⟩ := h2.inv.rep hv
        rw [hx] at hl; cases hl

/-- C124, memory, if no destructor panics: a block is live iff it is the buffer of exactly one vector,
iterator or boxed slice. -/
theorem C124_memory_partial (hs : c.size ≠ 0) (hd : ∀ a, c.dropPanics a = false) (h0 : X0.Initial)
    (h : XReaches c X0 hist X) (p : Nat) :
    X.pool.w.heap p ≠ none ↔ ∃ x : Nat, (∃ v : VecH, v.ptr = some p ∧ (X.pool.vecs[x]? = some (some v) ∨
        ∃ o, X.objs x = some o ∧ o.vec = v)) ∧
      ∀ y : Nat, (∃ v : VecH, v.ptr = some p ∧ (X.pool.vecs[y]? = some (some v) ∨
        ∃ o, X.objs y = some o ∧ o.vec = v)) → y = x := by
  obtain ⟨S, made, leaked, h1, lost, G, K, h2⟩ := h.inv hs h0
  have inG : ∀ (x : Nat) (v : VecH), (X.pool.vecs[x]? = some (some v) ∨ ∃ o, X.objs x = some o ∧ o.vec = v) →
      G[x]? = some (some v) := by
    rintro x v (hx | ⟨o, hx, rfl⟩)
    · exact (h2.inv.sub x v hx).1
    · exact (h2.obj x o hx).2.1
  constructor
  · intro hp
    obtain ⟨b, hb⟩ := Option.ne_none_iff_exists'.mp hp
    obtain ⟨x, v, hx, hv⟩ := h2.inv.inv.owned p b hb
    refine ⟨x, ⟨v, hv, ?_⟩, ?_⟩
    · refine (h2.inv.extra x v hx).imp_right fun hl => ?_
      rcases (h2.tidy hd x hl).2 with ⟨o, ho⟩ | hn | hn
      · have := (h2.obj x o ho).2.1
        simp only at hx
        rw [hx] at this
        exact ⟨o, ho, by simpa using this.symm⟩
      · simp only at hx
        rw [hx] at hn; cases hn
      · exact hn.elim
    · rintro y ⟨v', hv', hy⟩
      exact h2.inv.inv.inj y x v' v p (inG y v' hy) hx hv' hv
  · rintro ⟨x, ⟨v, hv, hx⟩, _⟩
    obtain ⟨l, _, hr⟩ := h2.inv.inv.rep x v (inG x v hx)
    rcases hr.buf with ⟨h3, _⟩ | ⟨q, b, _, hq, hb, _⟩
    · rw [hv] at h3; cases h3
    · rw [hv] at hq; cases hq
      simp only at hb
      simp [hb]

/-- C124, memory: once every vector, iterator and boxed slice is gone, and no destructor panicked, nothing is
leaked. -/
theorem C124_no_leak_partial (hs : c.size ≠ 0) (hd : ∀ a, c.dropPanics a = false) (h0 : X0.Initial)
    (h : XReaches c X0 hist X) (hv : ∀ (x : Nat) v, X.pool.vecs[x]? ≠ some (some v))
    (ho : ∀ x, X.objs x = none) (p : Nat) : X.pool.w.heap p = none := by
  apply Classical.byContradiction
  intro hp
  obtain ⟨x, ⟨v, _, hx | ⟨o, hx, _⟩⟩, _⟩ := (C124_memory_partial hs hd h0 h p).mp hp
  · exact hv x v hx
  · rw [ho] at hx; cases hx

/-! ## A non-trivial case: 13 panics when dropped -/

/-- The empty program state. -/
def xpool0 : XPool Nat := ⟨⟨[], world0⟩, fun _ => none⟩

/-- A vector is thinned out and turned into an iterator, which is used from both ends and dropped, with a
panic; another is turned into a boxed slice and back; a third goes the same way and its slice is dropped. -/
def xProg : List (Spec.XCmd Nat) :=
  [.call (.fromArray [1, 2, 3, 4, 13, 6]), .retain 0 (fun _ a => some (a != 1)), .intoIter 0, .next 0,
    .nextBack 0, .rest 0, .call (.fromArray [7, 8]), .intoBoxed 1, .readBox 1, .dropIter 0, .fromBoxed 1,
    .call (.on 1 (.push 9)), .dedupBy 1 (fun _ a b => some (a == b + 1)), .call (.clone 1), .intoBoxed 2,
    .dropBox 2]

/-- What the client saw, what is left in the vectors and what was dropped. -/
def xsummary (r : Option (Spec.XHistory Nat × XPool Nat)) :
    Option (List (Spec.Event Nat) × List (Option (List (Option Nat))) × List Nat) :=
  r.map fun r => (r.1.map Prod.snd, r.2.pool.vecs.map (Option.map fun v => (r.2.pool.w.slots v.ptr).take v.len),
    r.2.pool.w.log.drops)

example : xsummary (runXs cfgBoom xProg [] xpool0) = some
    ([.ret .unit, .ret .unit, .ret .unit, .ret (.opt (some 2)), .ret (.opt (some 6)), .ret (.list [3, 4, 13]),
      .ret .unit, .ret .unit, .ret (.list [7, 8]), .panic, .ret .unit, .ret .unit, .ret .unit, .ret .unit,
      .ret .unit, .ret .unit],
     [none, some [some 7, some 9], none], [1, 3, 4, 13, 7, 9]) := by decide +kernel

theorem xpool0_initial : xpool0.Initial := ⟨⟨rfl, fun _ => rfl, rfl⟩, fun _ => rfl⟩

example : ∃ hist X, XReaches cfgBoom xpool0 hist X ∧ xpool0.Initial ∧ hist.length = 16 := by
  cases h : runXs cfgBoom xProg [] xpool0 with
  | none =>
    have : (runXs cfgBoom xProg [] xpool0).isSome = true := by decide +kernel
    rw [h] at this; cases this
  | some r =>
    have : (runXs cfgBoom xProg [] xpool0).map (fun r => r.1.length) = some 16 := by decide +kernel
    rw [h] at this
    simp only [Option.map_some, Option.some.injEq] at this
    exact ⟨r.1, r.2, runXs_reaches xProg .start h, xpool0_initial, this⟩

/-! ## What is missing -/

/-- Calls the compiler accepts: the objects named are there and of the right kind. -/
def Spec.XCmd.Typed (X : XPool α) : Spec.XCmd α → Prop
  | .call _ => True
  | .retain x _ | .dedupBy x _ | .dedupByKey x _ | .intoIter x | .intoBoxed x =>
    ∃ v, X.pool.vecs[x]? = some (some v)
  | .next x | .nextBack x | .rest x | .dropIter x => ∃ it, X.objs x = some (.iter it)
  | .readBox x | .fromBoxed x | .dropBox x => ∃ b, X.objs x = some (.box b)

/-- Programs that only respect what the compiler asks for. -/
inductive XGoes (c : Cfg α) (X0 : XPool α) : Spec.XHistory α → XPool α → Prop
  | start : XGoes c X0 [] X0
  | step {h X cmd ev X'} : XGoes c X0 h X → cmd.Typed X → XHappens c X cmd ev X' →
      XGoes c X0 (h ++ [(cmd, ev)]) X'

/-- Calls that make no elements. -/
def Spec.XCmd.makes : Spec.XCmd α → Bool
  | .call (.fromArray _) | .intoIter _ | .next _ | .nextBack _ => false
  | _ => true

/-- `Typed` as a test. -/
def Spec.XCmd.typed (X : XPool α) : Spec.XCmd α → Bool
  | .call _ => true
  | .retain x _ | .dedupBy x _ | .dedupByKey x _ | .intoIter x | .intoBoxed x =>
    match X.pool.vecs[x]? with | some (some _) => true | _ => false
  | .next x | .nextBack x | .rest x | .dropIter x =>
    match X.objs x with | some (.iter _) => true | _ => false
  | .readBox x | .fromBoxed x | .dropBox x => match X.objs x with | some (.box _) => true | _ => false

theorem Spec.XCmd.typed_iff {cmd : Spec.XCmd α} (h : cmd.typed X = true) : cmd.Typed X := by
  cases cmd with
  | call cmd => trivial
  | _ =>
    simp only [Spec.XCmd.typed] at h
    split at h <;> simp_all [Spec.XCmd.Typed]

/-- Run a list of calls that return, to get examples of `XGoes`. -/
def runTyped (c : Cfg α) : List (Spec.XCmd α) → Spec.XHistory α → XPool α →
    Option (Spec.XHistory α × XPool α)
  | [], h, X => some (h, X)
  | cmd :: cmds, h, X =>
    if cmd.typed X then
      match runX c cmd X with
      | .ok o X' => runTyped c cmds (h ++ [(cmd, ⟨some o, X'.pool.w.refusals != X.pool.w.refusals⟩)]) X'
      | _ => none
    else none

theorem runTyped_goes (cmds : List (Spec.XCmd α)) {h h' : Spec.XHistory α} {X' : XPool α}
    (hr : XGoes c X0 h X) (he : runTyped c cmds h X = some (h', X')) : XGoes c X0 h' X' := by
  induction cmds generalizing h X with
  | nil => simp only [runTyped, Option.some.injEq, Prod.mk.injEq] at he; obtain ⟨rfl, rfl⟩ := he; exact hr
  | cons cmd cmds ih =>
    unfold runTyped at he
    split at he
    · rename_i hl
      split at he
      · rename_i o P1 h1
        exact ih (.step hr (Spec.XCmd.typed_iff hl) (.ret h1)) he
      · cases he
    · cases he

/-- The element 1 goes into a vector once and comes out of its iterator twice. -/
def xTwice : List (Spec.XCmd Nat) := [.call (.fromArray [1]), .intoIter 0, .next 0, .nextBack 0]

/-- C124 does not hold for all programs the compiler accepts: one that hands over the element 1 once, and in
which no element is made, gets it back twice. -/
theorem C124_refuted : ∃ hist X, XGoes cfg64 xpool0 hist X ∧ (∀ e ∈ hist, e.1.makes = false) ∧
    hist.given = [1] ∧ hist.taken = [1, 1] := by
  have key : (runTyped cfg64 xTwice [] xpool0).map (fun r => (r.1.all fun e => !e.1.makes, r.1.given, r.1.taken))
      = some (true, [1], [1, 1]) := by decide +kernel
  cases h : runTyped cfg64 xTwice [] xpool0 with
  | none => rw [h] at key; cases key
  | some r =>
    rw [h] at key
    simp only [Option.map_some, Option.some.injEq, Prod.mk.injEq, List.all_eq_true,
      Bool.not_eq_true'] at key
    exact ⟨r.1, r.2, runTyped_goes xTwice .start h, key.1, key.2.1, key.2.2⟩

end Lokky
