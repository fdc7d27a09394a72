import Verif.Proofs.SmallPoolPanic
import Verif.Props.VecPanicHistory
import Verif.Props.SmallHistory

/-!
# C120: small vectors whose elements panic when dropped
-/

namespace Lokky
variable {α : Type} {c : Cfg α} {P0 P : SPool α} {hist : Spec.SHistory α}

/-- C120 does not hold for `clear` of a vector that has spilled: after the panic it still contains everything,
although the element whose destructor panicked and all before it have been dropped. -/
theorem C120_clear_refuted {s : SSt α} {ys zs : List α} {a : α} (hs : c.size ≠ 0)
    (h : SRep c s.self s.w (ys ++ a :: zs)) (hw : s.w.WF) (hh : Small.isHeap s.self = true)
    (hy : ∀ y ∈ ys, c.dropPanics y = false) (ha : c.dropPanics a = true) :
    Sat c (Small.clear c s) (fun _ _ => False)
      (fun s' => STrans c (ys ++ a :: zs) (ys ++ [a]) s s') := by
  cases hst : s.self.store with
  | stack slots len => simp [Small.isHeap, hst] at hh
  | heap v =>
    exact heap_sat hst (C21_clear_refuted (s := ⟨v, s.w⟩) hs (h.heap v hst) hw hy ha) (fun _ _ h => h.elim)
      (fun t h1 => putHeap_trans h hst h1)

/-- The calls of the counterexample: `clear` of a spilled vector panics, then the vector is dropped. -/
def clearProg : List (Spec.SCmd Nat) := [.fromArray 1 [7, 13, 9], .on 0 .clear, .drop 0]

/-- C120 does not hold over whole client programs: 7 was given once and is dropped twice. -/
theorem C120_refuted : ∃ (hist : Spec.SHistory Nat) (P : SPool Nat),
    SReaches cfgBoom ⟨[], world0⟩ hist P ∧ (⟨[], world0⟩ : SPool Nat).Initial ∧
    hist.given.Nodup ∧ P.w.log.drops.count 7 = 2 := by
  cases h : srunAll cfgBoom clearProg [] ⟨[], world0⟩ with
  | none =>
    have : (srunAll cfgBoom clearProg [] ⟨[], world0⟩).isSome = true := by decide +kernel
    rw [h] at this; cases this
  | some r =>
    have : (srunAll cfgBoom clearProg [] ⟨[], world0⟩).map (fun r => (r.1.given,
        r.2.w.log.drops.count 7)) = some ([7, 13, 9], 2) := by
      decide +kernel
    rw [h] at this
    simp only [Option.map_some, Option.some.injEq, Prod.mk.injEq] at this
    refine ⟨r.1, r.2, srunAll_reaches clearProg .start h, ⟨rfl, fun _ => rfl, rfl⟩, ?_, this.2⟩
    rw [this.1]; decide

/-- C120, the part that holds: whatever destructors panic, as long as nobody clears a spilled vector with such an
element, every vector shows the list the calls made of it, and every element given or made is in exactly one place —
dropped, handed back, in a vector, or leaked by a vector that was dropped or (inline) cleared. Missing: `clear` of
spilled vectors, for which it is false, and iterators (`drain`, `into_iter`, `retain`), which are not calls of these
programs. -/
theorem C120_history_partial (hs : c.size ≠ 0) (h0 : P0.Initial) (h : SReachesP c P0 hist P) :
    ∃ L made leaked, Spec.SRunsP c.cloneRel c.dropRel hist L made P.w.log.drops leaked ∧
      (∀ (x : Nat) v, P.vecs[x]? = some (some v) → ∃ l, L[x]? = some (some l) ∧
        Small.asSlice c ⟨v, P.w⟩ = .ok l ⟨v, P.w⟩ ∧ Small.lenOf v = l.length) ∧
      (hist.given ++ made).Perm (P.w.log.drops ++ hist.taken ++ Spec.Lists.contents L ++ leaked) := by
  obtain ⟨L, made, leaked, h1, G, K, h2⟩ := h.inv hs h0
  refine ⟨L, made, leaked, h1, ?_, h1.conserve⟩
  intro x v hx
  obtain ⟨l, hl, _, hr⟩ := h2.rep hx
  exact ⟨l, hl, sasSlice_spec (s := ⟨v, P.w⟩) hs hr, hr.lenOf⟩

/-- C120, in terms of drops only: if the elements given and made are all different, no element has been dropped twice,
and none that was dropped is still in a vector or was handed back. -/
theorem C120_no_double_drop_partial {cl : Spec.CloneRel α} {dp : α → Prop} {L : Spec.Lists α}
    {made dropped leaked : List α} (h : Spec.SRunsP cl dp hist L made dropped leaked)
    (hn : (hist.given ++ made).Nodup) : (dropped ++ hist.taken ++ Spec.Lists.contents L).Nodup :=
  (List.nodup_append.mp (h.conserve.nodup_iff.mp hn)).1

/-- C120, the part that holds: whatever destructors have panicked before, the next call has no undefined behaviour,
unless it clears a spilled vector with an element whose destructor panics. It ends, or, if a destructor panics during a
panic, aborts the program. -/
theorem C120_next_call_partial (hs : c.size ≠ 0) (h0 : P0.Initial) (h : SReachesP c P0 hist P)
    {cmd : Spec.SCmd α} (hl : cmd.Legal c P) (hm : cmd.Mild c P) :
    ((∃ ev P', SHappens c P cmd ev P') ∨ (runSCmd c cmd P = .abort ∧ ∃ a, c.dropPanics a = true)) ∧
      ∀ u, runSCmd c cmd P ≠ .ub u := by
  obtain ⟨L, made, leaked, h1, G, K, h2⟩ := h.inv hs h0
  have key := runSCmd_panics hs h2 cmd hl hm
  cases hr : runSCmd c cmd P with
  | ok o P' => exact ⟨Or.inl ⟨_, _, .ret hr⟩, fun u e => nomatch e⟩
  | panic P' => exact ⟨Or.inl ⟨_, _, .panic hr⟩, fun u e => nomatch e⟩
  | abort => rw [hr] at key; exact ⟨Or.inr ⟨rfl, key⟩, fun u e => nomatch e⟩
  | ub u => rw [hr] at key; exact key.elim

/-- C120: the only memory that is held without a vector is that of vectors whose own `drop` panicked, one block each. -/
theorem C120_leaks_partial (hs : c.size ≠ 0) (h0 : P0.Initial) (h : SReachesP c P0 hist P) :
    ∃ owner : Nat → Nat,
      (∀ p, P.w.heap p ≠ none → (∃ v : SmallH α, P.vecs[owner p]? = some (some v) ∧ v.ptr = some p) ∨
        (.drop (owner p), ⟨none, false⟩) ∈ hist) ∧
      ∀ p q, P.w.heap p ≠ none → P.w.heap q ≠ none → owner p = owner q → p = q := by
  classical
  obtain ⟨L, made, leaked, h1, G, K, h2⟩ := h.inv hs h0
  have key : ∀ p, P.w.heap p ≠ none → ∃ (x : Nat) (v : SmallH α), G[x]? = some (some v) ∧ v.ptr = some p := by
    intro p hp
    obtain ⟨b, hb⟩ := Option.ne_none_iff_exists'.mp hp
    exact h2.inv.owned p b hb
  have hdrop : ∀ x ∈ slostIn hist, (.drop x, ⟨none, false⟩) ∈ hist := fun x => slostIn_event h1
  refine ⟨fun p => if hp : P.w.heap p ≠ none then (key p hp).choose else 0, ?_, ?_⟩
  · intro p hp
    simp only [dif_pos hp]
    obtain ⟨v, h3, h4⟩ := (key p hp).choose_spec
    rcases h2.extra _ v h3 with h5 | h5
    · exact Or.inl ⟨v, h5, h4⟩
    · exact Or.inr (hdrop _ h5)
  · intro p q hp hq e
    simp only [dif_pos hp, dif_pos hq] at e
    obtain ⟨v, h3, h4⟩ := (key p hp).choose_spec
    obtain ⟨v', h5, h6⟩ := (key q hq).choose_spec
    rw [e] at h3
    rw [h3] at h5
    cases h5
    rw [h4] at h6
    exact Option.some.inj h6

/-! ## A non-trivial case: 13 panics when dropped -/

/-- The calls of the example: clearing an inline vector, truncating a spilled one, an overwriting and the destruction
of a spilled vector panic. -/
def sboomProg : List (Spec.SCmd Nat) :=
  [.new 4, .on 0 (.extendFromSlice [1, 13, 2]), .on 0 .clear, .on 0 (.push 3), .fromArray 1 [4, 13, 5, 13],
    .on 1 (.truncate 3), .on 1 (.set 1 6), .on 1 .clear, .fromArray 2 [7, 13, 8], .drop 2, .on 0 .pop]

example : ssummary (srunAllP cfgBoom sboomProg [] ⟨[], world0⟩) = some
    ([.ret .unit, .ret .unit, .panic, .ret .unit, .ret .unit, .panic, .panic, .ret .unit, .ret .unit, .panic,
      .ret (.opt (some 3))],
     [some [], some [], none], [1, 13, 13, 13, 4, 6, 5, 7, 13]) := by decide +kernel

example : ∃ hist P, SReachesP cfgBoom ⟨[], world0⟩ hist P ∧ (⟨[], world0⟩ : SPool Nat).Initial ∧
    hist.length = 11 := by
  cases h : srunAllP cfgBoom sboomProg [] ⟨[], world0⟩ with
  | none =>
    have : (srunAllP cfgBoom sboomProg [] ⟨[], world0⟩).isSome = true := by decide +kernel
    rw [h] at this; cases this
  | some r =>
    have : (srunAllP cfgBoom sboomProg [] ⟨[], world0⟩).map (fun r => r.1.length) = some 11 := by
      decide +kernel
    rw [h] at this
    exact ⟨r.1, r.2, srunAllP_reaches sboomProg .start h, ⟨rfl, fun _ => rfl, rfl⟩, by simpa using this⟩

end Lokky
