import Verif.Proofs.MixedPrograms
import Verif.Props.VecPrograms
import Verif.Props.SmallPanicHistory

/-!
# C127: programs that mix vectors, small vectors, by-value iterators and boxed slices
-/

namespace Lokky
variable {α : Type} {c : Cfg α} {Y0 Y : YPool α} {hist : Spec.YHistory α}

/-- C127, the part that holds: whatever the program did before and whichever destructors panicked, the next
call has no undefined behaviour. It ends, or, if a destructor panics during a panic, aborts the program.
Missing, because it is false: `clear` of heap vectors when a destructor panics (C21), `next_back` on an exhausted
iterator (C15), boxed slices of empty vectors (C22, C25), and the calls on small vectors excluded in C28 (C33,
C37, C38 and others). -/
theorem C127_safe_partial (hs : c.size ≠ 0) (h0 : Y0.Initial) (h : YReaches c Y0 hist Y)
    {cmd : Spec.YCmd α} (hl : cmd.Legal c Y) :
    ((∃ ev Y', YHappens c Y cmd ev Y') ∨ (runY c cmd Y = .abort ∧ ∃ a, c.dropPanics a = true)) ∧
      ∀ u, runY c cmd Y ≠ .ub u := by
  obtain ⟨S, made, leaked, h1, lost, G, K, h2⟩ := h.inv hs h0
  have key := runY_spec hs h2 cmd hl
  cases hr : runY c cmd Y with
  | ok o Y' => exact ⟨Or.inl ⟨_, _, .ret hr⟩, fun u e => nomatch e⟩
  | panic Y' => exact ⟨Or.inl ⟨_, _, .panic hr⟩, fun u e => nomatch e⟩
  | abort => rw [hr] at key; exact ⟨Or.inr ⟨rfl, key⟩, fun u e => nomatch e⟩
  | ub u => rw [hr] at key; exact key.elim

/-- C127, the part that holds: the history is one of the specification on lists; every vector, small vector,
iterator and boxed slice shows what it has there; and every element handed over or made by a callback is in
exactly one place — dropped, handed back, stored, or left behind by a panic. -/
theorem C127_owned_once_partial (hs : c.size ≠ 0) (h0 : Y0.Initial) (h : YReaches c Y0 hist Y) :
    ∃ S made leaked, Spec.YRuns c.cloneRel c.dropRel hist S made Y.w.log.drops leaked ∧
      (∀ (x : Nat) v, Y.x.pool.vecs[x]? = some (some v) → ∃ l, S.vecs[x]? = some (some l) ∧
        Vec.asSlice c ⟨v, Y.w⟩ = .ok l ⟨v, Y.w⟩ ∧ v.len = l.length) ∧
      (∀ (x : Nat) v, Y.smalls[x]? = some (some v) → ∃ l, S.smalls[x]? = some (some l) ∧
        Small.asSlice c ⟨v, Y.w⟩ = .ok l ⟨v, Y.w⟩ ∧ Small.lenOf v = l.length) ∧
      (∀ x it, Y.x.objs x = some (.iter it) → ∃ m, (x, .iter m) ∈ S.objs ∧
        Vec.iterAsSlice c ⟨it, Y.w⟩ = .ok m ⟨it, Y.w⟩) ∧
      (∀ x b, Y.x.objs x = some (.box b) → ∃ m, (x, .box m) ∈ S.objs ∧ b.len = m.length ∧
        Vec.asSlice c ⟨Vec.ofBoxedSlice b, Y.w⟩ = .ok m ⟨Vec.ofBoxedSlice b, Y.w⟩) ∧
      (hist.given ++ made).Perm (Y.w.log.drops ++ hist.taken ++ S.contents ++ leaked) := by
  obtain ⟨S, made, leaked, h1, lost, G, K, h2⟩ := h.inv hs h0
  have rep : ∀ x o, Y.x.objs x = some o → ∃ l, Rep c o.vec Y.w l ∧ o.Shows l ∧ (x, o.rest l) ∈ S.objs := by
    intro x o hx
    obtain ⟨_, k2, l, k3, k4, k5⟩ := h2.x.obj x o hx
    obtain ⟨l', e1, hr⟩ := h2.x.inv.inv.rep x _ k2
    obtain rfl : l = l' := by rw [k3] at e1; simpa using e1
    exact ⟨l, hr, k4, k5⟩
  refine ⟨S, made, leaked, h1, ?_, ?_, ?_, ?_, h1.conserve⟩
  · intro x v hx
    obtain ⟨l, hl, _, hr⟩ := h2.x.inv.rep hx
    exact ⟨l, hl, asSlice_spec (s := ⟨v, Y.w⟩) hs hr, hr.len⟩
  · intro x v hx
    obtain ⟨_, _, l, hl, hr, _⟩ := h2.small x v hx
    exact ⟨l, hl, sasSlice_spec (s := ⟨v, Y.w⟩) hs hr, hr.lenOf⟩
  · intro x it hx
    obtain ⟨l, hr, k4, k5⟩ := rep x _ hx
    exact ⟨_, k5, iterAsSlice_eq (s := ⟨it, Y.w⟩) hs ⟨⟨l, hr, k4, rfl⟩, h2.x.inv.inv.wf⟩⟩
  · intro x b hx
    obtain ⟨l, hr, k4, k5⟩ := rep x _ hx
    exact ⟨l, k5, hr.len, asSlice_spec (s := ⟨Vec.ofBoxedSlice b, Y.w⟩) hs hr⟩

/-- C127: under one number there is at most one thing, and nothing is in the specification that the program does
not have. -/
theorem C127_objects_partial (hs : c.size ≠ 0) (h0 : Y0.Initial) (h : YReaches c Y0 hist Y) :
    ∃ S made leaked, Spec.YRuns c.cloneRel c.dropRel hist S made Y.w.log.drops leaked ∧
      (S.objs.map Prod.fst).Nodup ∧ (∀ x, x ∈ S.objs.map Prod.fst ↔ Y.x.objs x ≠ none) ∧
      (∀ x : Nat, Y.x.pool.vecs[x]? = some none → S.vecs[x]? = some none) ∧
      (∀ x : Nat, Y.smalls[x]? = some none → S.smalls[x]? = some none) ∧
      ∀ (x : Nat) s, Y.smalls[x]? = some (some s) → Y.x.pool.vecs[x]? = some none ∧ Y.x.objs x = none := by
  obtain ⟨S, made, leaked, h1, lost, G, K, h2⟩ := h.inv hs h0
  refine ⟨S, made, leaked, h1, h2.x.nodup, ?_, h2.x.inv.gone, h2.gone,
    fun x s hx => ⟨(h2.small x s hx).1, (h2.small x s hx).2.1⟩⟩
  intro x
  constructor
  · intro hx
    obtain ⟨⟨y, r⟩, hy, rfl⟩ := List.mem_map.mp hx
    obtain ⟨o, ho⟩ := h2.x.key y r hy
    simp [ho]
  · intro hx
    obtain ⟨o, ho⟩ := Option.ne_none_iff_exists'.mp hx
    obtain ⟨_, _, l, _, _, h5⟩ := h2.x.obj x o ho
    exact List.mem_map.mpr ⟨_, h5, rfl⟩

/-- Number `x` of the program holds the block at `p`. -/
def YPool.Holds (Y : YPool α) (x p : Nat) : Prop :=
  (∃ v : VecH, Y.x.pool.vecs[x]? = some (some v) ∧ v.ptr = some p) ∨
    (∃ s : SmallH α, Y.smalls[x]? = some (some s) ∧ s.ptr = some p) ∨
    (∃ it, Y.x.objs x = some (.iter it) ∧ it.vec.ptr = some p) ∨
    ∃ b, Y.x.objs x = some (.box b) ∧ (Vec.ofBoxedSlice b).ptr = some p

/-- C127, memory, if no destructor panics: a block is live iff it is the buffer of exactly one vector, spilled
small vector, iterator or boxed slice. -/
theorem C127_memory_partial (hs : c.size ≠ 0) (hd : ∀ a, c.dropPanics a = false) (h0 : Y0.Initial)
    (h : YReaches c Y0 hist Y) (p : Nat) :
    Y.w.heap p ≠ none ↔ ∃ x, Y.Holds x p ∧ ∀ y, Y.Holds y p → y = x := by
  obtain ⟨S, made, leaked, h1, lost, G, K, h2⟩ := h.inv hs h0
  have inG : ∀ x, Y.Holds x p → ∃ v, G[x]? = some (some v) ∧ v.ptr = some p := by
    rintro x (⟨v, hx, hp⟩ | ⟨s, hx, hp⟩ | ⟨it, hx, hp⟩ | ⟨b, hx, hp⟩)
    · exact ⟨v, (h2.x.inv.sub x v hx).1, hp⟩
    · obtain ⟨u, hu, hp⟩ := SmallH.ptr_block hp
      obtain ⟨_, _, l, _, _, h5, _⟩ := h2.small x s hx
      exact ⟨u, by rw [h5, hu], hp⟩
    · exact ⟨_, (h2.x.obj x _ hx).2.1, hp⟩
    · exact ⟨_, (h2.x.obj x _ hx).2.1, hp⟩
  constructor
  · intro hp
    obtain ⟨b, hb⟩ := Option.ne_none_iff_exists'.mp hp
    obtain ⟨x, v, hx, hv⟩ := h2.x.inv.inv.owned p b hb
    simp only at hx
    refine ⟨x, ?_, ?_⟩
    · rcases h2.x.inv.extra x v hx with hl | hl
      · exact Or.inl ⟨v, hl, hv⟩
      · rcases (h2.x.tidy hd x hl).2 with ⟨o, ho⟩ | hn | ⟨s, hn⟩
        · have := (h2.x.obj x o ho).2.1
          rw [hx] at this
          cases o with
          | iter it => exact Or.inr (Or.inr (Or.inl ⟨it, ho, by simp_all [ObjH.vec]⟩))
          | box b => exact Or.inr (Or.inr (Or.inr ⟨b, ho, by simp_all [ObjH.vec]⟩))
        · rw [hx] at hn; cases hn
        · obtain ⟨_, _, l, _, _, h5, _⟩ := h2.small x s hn
          rw [hx] at h5
          exact Or.inr (Or.inl ⟨s, hn, by rw [SmallH.block_ptr (Option.some.inj h5).symm, hv]⟩)
    · intro y hy
      obtain ⟨v', hy, hv'⟩ := inG y hy
      exact h2.x.inv.inv.inj y x v' v p hy hx hv' hv
  · rintro ⟨x, hx, _⟩
    obtain ⟨v, hx, hv⟩ := inG x hx
    obtain ⟨l, _, hr⟩ := h2.x.inv.inv.rep x v hx
    rcases hr.buf with ⟨h3, _⟩ | ⟨q, b, _, hq, hb, _⟩
    · rw [hv] at h3; cases h3
    · rw [hv] at hq; cases hq
      simp only at hb
      simp [hb]

/-- C127, memory: once everything is gone, and no destructor panicked, nothing is leaked. -/
theorem C127_no_leak_partial (hs : c.size ≠ 0) (hd : ∀ a, c.dropPanics a = false) (h0 : Y0.Initial)
    (h : YReaches c Y0 hist Y) (hv : ∀ (x : Nat) v, Y.x.pool.vecs[x]? ≠ some (some v))
    (hm : ∀ (x : Nat) v, Y.smalls[x]? ≠ some (some v)) (ho : ∀ x, Y.x.objs x = none) (p : Nat) :
    Y.w.heap p = none := by
  apply Classical.byContradiction
  intro hp
  obtain ⟨x, ⟨v, hx, _⟩ | ⟨v, hx, _⟩ | ⟨_, hx, _⟩ | ⟨_, hx, _⟩, _⟩ := (C127_memory_partial hs hd h0 h p).mp hp
  · exact hv x v hx
  · exact hm x v hx
  · rw [ho] at hx; cases hx
  · rw [ho] at hx; cases hx

/-! ## A non-trivial case: 13 panics when dropped -/

/-- The empty program state. -/
def ypool0 : YPool Nat := ⟨xpool0, []⟩

theorem ypool0_initial : ypool0.Initial := ⟨xpool0_initial, rfl⟩

/-- A small vector spills, becomes a vector and an iterator, which is dropped with a panic; a vector becomes a
small vector, is thinned out, becomes a boxed slice, a small vector again and a vector; an inline small vector is
dropped with a panic. -/
def yProg : List (Spec.YCmd Nat) :=
  [.small (.new 2), .small (.on 0 (.push 1)), .small (.on 0 (.push 2)), .small (.on 0 (.push 13)), .intoVec 0,
    .vec (.call (.on 0 (.push 4))), .vec (.call (.fromArray [5, 6, 6, 7])), .vec (.intoIter 0), .toSmall 1 3,
    .dedupBy 1 (fun _ a b => some (a == b)), .vec (.next 0), .small (.clone 1), .intoBoxed 1, .vec (.dropIter 0),
    .vec (.readBox 1), .boxToSmall 1 4, .retain 1 (fun _ a => some (a != 5)), .small (.on 2 (.push 13)),
    .intoVec 1, .small (.drop 2), .vec (.call (.on 1 .pop))]

/-- What the client saw, what is left in the vectors and what was dropped. -/
def ysummary (r : Option (Spec.YHistory Nat × YPool Nat)) :
    Option (List (Spec.Event Nat) × List (Option (List (Option Nat))) × List Nat) :=
  r.map fun r => (r.1.map Prod.snd,
    r.2.x.pool.vecs.map (Option.map fun v => (r.2.w.slots v.ptr).take v.len), r.2.w.log.drops)


example : ysummary (runYs cfgBoom yProg [] ypool0) = some
    ([.ret .unit, .ret .unit, .ret .unit, .ret .unit, .ret .unit, .ret .unit, .ret .unit, .ret .unit, .ret
      .unit, .ret .unit, .ret (.opt (some 1)), .ret .unit, .ret .unit, .panic, .ret (.list [5, 6, 7]), .ret
      .unit, .ret .unit, .ret .unit, .ret .unit, .panic, .ret (.opt (some 7))],
     [none, some [some 6], none], [2, 13, 5, 5, 6, 7, 13]) := by decide +kernel

example : ∃ hist Y, YReaches cfgBoom ypool0 hist Y ∧ ypool0.Initial ∧ hist.length = 21 := by
  have key : (runYs cfgBoom yProg [] ypool0).map (fun r => r.1.length) = some 21 := by decide +kernel
  cases h : runYs cfgBoom yProg [] ypool0 with
  | none => rw [h] at key; cases key
  | some r =>
    rw [h] at key
    simp only [Option.map_some, Option.some.injEq] at key
    exact ⟨r.1, r.2, runYs_reaches yProg .start h, ypool0_initial, key⟩

/-! ## What is missing -/

/-- Calls the compiler accepts: the objects named are there and of the right kind. -/
def Spec.YCmd.Typed (Y : YPool α) : Spec.YCmd α → Prop
  | .vec cmd => cmd.Typed Y.x
  | .small _ => True
  | .retain x _ | .dedupBy x _ | .dedupByKey x _ | .intoVec x | .intoBoxed x => ∃ v, Y.smalls[x]? = some (some v)
  | .toSmall x _ => ∃ v, Y.x.pool.vecs[x]? = some (some v)
  | .boxToSmall x _ => ∃ b, Y.x.objs x = some (.box b)

/-- Programs that only respect what the compiler asks for. -/
inductive YGoes (c : Cfg α) (Y0 : YPool α) : Spec.YHistory α → YPool α → Prop
  | start : YGoes c Y0 [] Y0
  | step {h Y cmd ev Y'} : YGoes c Y0 h Y → cmd.Typed Y → YHappens c Y cmd ev Y' →
      YGoes c Y0 (h ++ [(cmd, ev)]) Y'

/-- Calls that make no elements. -/
def Spec.YCmd.makes : Spec.YCmd α → Bool
  | .vec cmd => cmd.makes
  | .small (.fromArray _ _) | .intoVec _ | .toSmall _ _ | .intoBoxed _ | .boxToSmall _ _ => false
  | _ => true

/-- `Typed` as a test. -/
def Spec.YCmd.typed (Y : YPool α) : Spec.YCmd α → Bool
  | .vec cmd => cmd.typed Y.x
  | .small _ => true
  | .retain x _ | .dedupBy x _ | .dedupByKey x _ | .intoVec x | .intoBoxed x =>
    match Y.smalls[x]? with | some (some _) => true | _ => false
  | .toSmall x _ => match Y.x.pool.vecs[x]? with | some (some _) => true | _ => false
  | .boxToSmall x _ => match Y.x.objs x with | some (.box _) => true | _ => false

theorem Spec.YCmd.typed_iff {cmd : Spec.YCmd α} (h : cmd.typed Y = true) : cmd.Typed Y := by
  cases cmd with
  | vec cmd => exact Spec.XCmd.typed_iff h
  | small cmd => trivial
  | _ =>
    simp only [Spec.YCmd.typed] at h
    split at h <;> simp_all [Spec.YCmd.Typed]

/-- Run a list of calls that return, to get examples of `YGoes`. -/
def runTypedY (c : Cfg α) : List (Spec.YCmd α) → Spec.YHistory α → YPool α →
    Option (Spec.YHistory α × YPool α)
  | [], h, Y => some (h, Y)
  | cmd :: cmds, h, Y =>
    if cmd.typed Y then
      match runY c cmd Y with
      | .ok o Y' => runTypedY c cmds (h ++ [(cmd, ⟨some o, Y'.w.refusals != Y.w.refusals⟩)]) Y'
      | _ => none
    else none

theorem runTypedY_goes (cmds : List (Spec.YCmd α)) {h h' : Spec.YHistory α} {Y' : YPool α}
    (hr : YGoes c Y0 h Y) (he : runTypedY c cmds h Y = some (h', Y')) : YGoes c Y0 h' Y' := by
  induction cmds generalizing h Y with
  | nil => simp only [runTypedY, Option.some.injEq, Prod.mk.injEq] at he; obtain ⟨rfl, rfl⟩ := he; exact hr
  | cons cmd cmds ih =>
    unfold runTypedY at he
    split at he
    · rename_i hl
      split at he
      · rename_i o P1 h1
        exact ih (.step hr (Spec.YCmd.typed_iff hl) (.ret h1)) he
      · cases he
    · cases he

/-- The element 1 goes into a small vector once. That becomes a vector and an iterator, and 1 comes out twice. -/
def yTwice : List (Spec.YCmd Nat) :=
  [.small (.fromArray 0 [1]), .intoVec 0, .vec (.intoIter 0), .vec (.next 0), .vec (.nextBack 0)]

/-- C127 does not hold for all programs the compiler accepts: one that hands over the element 1 once, and in
which no element is made, gets it back twice. -/
theorem C127_refuted : ∃ hist Y, YGoes cfg64 ypool0 hist Y ∧ (∀ e ∈ hist, e.1.makes = false) ∧
    hist.given = [1] ∧ hist.taken = [1, 1] := by
  have key : (runTypedY cfg64 yTwice [] ypool0).map (fun r => (r.1.all fun e => !e.1.makes, r.1.given, r.1.taken))
      = some (true, [1], [1, 1]) := by decide +kernel
  cases h : runTypedY cfg64 yTwice [] ypool0 with
  | none => rw [h] at key; cases key
  | some r =>
    rw [h] at key
    simp only [Option.map_some, Option.some.injEq, Prod.mk.injEq, List.all_eq_true,
      Bool.not_eq_true'] at key
    exact ⟨r.1, r.2, runTypedY_goes yTwice .start h, key.1, key.2.1, key.2.2⟩

/-- The element 1 goes inline into a small vector, which becomes a vector. -/
def yLost : List (Spec.YCmd Nat) := [.small (.fromArray 2 [1]), .intoVec 0, .vec (.call (.drop 0))]

/-- C127 does not hold for all programs the compiler accepts: one hands over the element 1 and, without any panic,
ends with nothing left, nothing handed back and nothing dropped. -/
theorem C127_refuted_lost : ∃ hist Y, YGoes cfg64 ypool0 hist Y ∧ (∀ e ∈ hist, e.2.out ≠ none) ∧
    hist.given = [1] ∧ hist.taken = [] ∧ Y.w.log.drops = [] ∧
    Y.x.pool.vecs = [none] ∧ Y.smalls.length = 1 ∧ ∀ s, some s ∉ Y.smalls := by
  have key : (runTypedY cfg64 yLost [] ypool0).map (fun r => (r.1.all fun e => e.2.out.isSome,
      [r.1.given, r.1.taken, r.2.w.log.drops], [r.2.x.pool.vecs.map Option.isSome, r.2.smalls.map Option.isSome]))
      = some (true, [[1], [], []], [[false], [false]]) := by decide +kernel
  cases h : runTypedY cfg64 yLost [] ypool0 with
  | none => rw [h] at key; cases key
  | some r =>
    rw [h] at key
    simp only [Option.map_some, Option.some.injEq, Prod.mk.injEq, List.all_eq_true, List.cons.injEq,
      and_true] at key
    obtain ⟨k1, ⟨k2, k3, k4⟩, k5, k6⟩ := key
    refine ⟨r.1, r.2, runTypedY_goes yLost .start h, ?_, k2, k3, k4, ?_, ?_, ?_⟩
    · intro e he h'
      have := k1 e he
      rw [h'] at this; cases this
    · match hv : r.2.x.pool.vecs, k5 with
      | [none], _ => rfl
    · simpa using congrArg List.length k6
    · intro s hs
      have := List.mem_map_of_mem (f := Option.isSome) hs
      rw [k6] at this
      simp at this

end Lokky
