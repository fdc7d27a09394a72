import Verif.Proofs.VecPoolPanic
import Verif.Props.VecPanic
import Verif.Props.VecHistory

/-!
# C21 over whole client programs
-/

namespace Lokky
variable {α : Type} {c : Cfg α} {P0 P : Pool α} {hist : Spec.History α}

/-- C21, the part that holds, for whole client programs: whatever destructors panic, as long as nobody calls `clear`
every vector shows the list the calls made of it, and every element given or made is in exactly one place — dropped,
handed back, in a vector, or leaked by a vector whose destruction was cut short. Missing: `clear`, for which it is
false, and iterators (`drain`, `into_iter`, `retain`), which are not calls of these programs. -/
theorem C21_history_partial (hs : c.size ≠ 0) (h0 : P0.Initial) (h : Reaches c P0 hist P)
    (hc : ∀ e ∈ hist, ∀ x, e.1 ≠ .on x .clear) :
    ∃ L made leaked, Spec.RunsP c.cloneRel c.dropRel hist L made P.w.log.drops leaked ∧
      (∀ (x : Nat) v, P.vecs[x]? = some (some v) → ∃ l, L[x]? = some (some l) ∧
        Vec.asSlice c ⟨v, P.w⟩ = .ok l ⟨v, P.w⟩ ∧ v.len = l.length) ∧
      (hist.given ++ made).Perm (P.w.log.drops ++ hist.taken ++ Spec.Lists.contents L ++ leaked) := by
  obtain ⟨L, made, leaked, h1, G, K, h2⟩ := h.inv_panics hs h0 hc
  refine ⟨L, made, leaked, h1, ?_, h1.conserve⟩
  intro x v hx
  obtain ⟨l, hl, _, hr⟩ := h2.rep hx
  exact ⟨l, hl, asSlice_spec (s := ⟨v, P.w⟩) hs hr, hr.len⟩

/-- C21, in terms of drops only: if the elements given and made are all different, no element has been dropped twice,
and none that was dropped is still in a vector or was handed back. -/
theorem C21_no_double_drop_partial {cl : Spec.CloneRel α} {dp : α → Prop} {L : Spec.Lists α}
    {made dropped leaked : List α} (h : Spec.RunsP cl dp hist L made dropped leaked)
    (hn : (hist.given ++ made).Nodup) : (dropped ++ hist.taken ++ Spec.Lists.contents L).Nodup :=
  (List.nodup_append.mp (h.conserve.nodup_iff.mp hn)).1

/-- C21, the part that holds: whatever destructors have panicked before, the next call that is not `clear` has no
undefined behaviour. It ends, or, if a destructor panics during a panic, aborts the program. -/
theorem C21_next_call_partial (hs : c.size ≠ 0) (h0 : P0.Initial) (h : Reaches c P0 hist P)
    (hc : ∀ e ∈ hist, ∀ x, e.1 ≠ .on x .clear) {cmd : Spec.Cmd α} (hl : cmd.Legal c P)
    (hn : ∀ x, cmd ≠ .on x .clear) :
    ((∃ ev P', Happens c P cmd ev P') ∨ (runCmd c cmd P = .abort ∧ ∃ a, c.dropPanics a = true)) ∧
      ∀ u, runCmd c cmd P ≠ .ub u := by
  obtain ⟨L, made, leaked, h1, G, K, h2⟩ := h.inv_panics hs h0 hc
  have key := runCmd_panics hs h2 cmd hl (Spec.Cmd.NoClear.mild hn)
  cases hr : runCmd c cmd P with
  | ok o P' => exact ⟨Or.inl ⟨_, _, .ret hr⟩, fun u e => nomatch e⟩
  | panic P' => exact ⟨Or.inl ⟨_, _, .panic hr⟩, fun u e => nomatch e⟩
  | abort => rw [hr] at key; exact ⟨Or.inr ⟨rfl, key⟩, fun u e => nomatch e⟩
  | ub u => rw [hr] at key; exact key.elim

/-- C21 and C04: the only memory that is held without a vector is that of vectors whose own `drop` panicked, one
block each. -/
theorem C21_leaks_partial (hs : c.size ≠ 0) (h0 : P0.Initial) (h : Reaches c P0 hist P)
    (hc : ∀ e ∈ hist, ∀ x, e.1 ≠ .on x .clear) :
    ∃ owner : Nat → Nat,
      (∀ p, P.w.heap p ≠ none → (∃ v : VecH, P.vecs[owner p]? = some (some v) ∧ v.ptr = some p) ∨
        (.drop (owner p), ⟨none, false⟩) ∈ hist) ∧
      ∀ p q, P.w.heap p ≠ none → P.w.heap q ≠ none → owner p = owner q → p = q := by
  classical
  obtain ⟨L, made, leaked, h1, G, K, h2⟩ := h.inv_panics hs h0 hc
  have key : ∀ p, P.w.heap p ≠ none → ∃ (x : Nat) (v : VecH), G[x]? = some (some v) ∧ v.ptr = some p := by
    intro p hp
    obtain ⟨b, hb⟩ := Option.ne_none_iff_exists'.mp hp
    exact h2.inv.owned p b hb
  have hdrop : ∀ x ∈ lostIn hist, (.drop x, ⟨none, false⟩) ∈ hist := by
    exact fun x => lostIn_event h1
  refine ⟨fun p => if hp : P.w.heap p ≠ none then (key p hp).choose else 0, ?_, ?_⟩
  · intro p hp
    simp only [dif_pos hp]
    obtain ⟨v, h3, h4⟩ := (key p hp).choose_spec
    rcases h2.extra _ v h3 with h5 | h5
    · exact Or.inl ⟨v, h5, h4⟩
    · exact Or.inr (hdrop _ h5)
  · intro p q hp hq e
    simp only [dif_pos hp, dif_pos hq] at e
    obtain ⟨v, h3, h4⟩ := (key p hp).choose_spec
    obtain ⟨v', h5, h6⟩ := (key q hq).choose_spec
    rw [e] at h3
    rw [h3] at h5
    cases h5
    rw [h4] at h6
    exact Option.some.inj h6

/-! ## A non-trivial case: 13 panics when dropped -/

/-- The calls of the example: a truncation, an overwriting and the destruction of a vector panic. -/
def boomProg : List (Spec.Cmd Nat) :=
  [.fromArray [1, 13, 2, 13], .on 0 (.truncate 3), .on 0 (.set 1 5), .on 0 (.push 6),
    .fromArray [7, 13, 8], .drop 1, .on 0 .pop]

example : summary (runAll cfgBoom boomProg [] ⟨[], world0⟩) = some
    ([.ret .unit, .panic, .panic, .ret .unit, .ret .unit, .panic, .ret (.opt (some 6))],
     [some [some 1, some 5, some 2], none], [13, 13, 7, 13]) := by decide +kernel

example : ∃ hist P, Reaches cfgBoom ⟨[], world0⟩ hist P ∧ (⟨[], world0⟩ : Pool Nat).Initial ∧
    hist.length = 7 ∧ ∀ e ∈ hist, ∀ x, e.1 ≠ .on x .clear := by
  cases h : runAll cfgBoom boomProg [] ⟨[], world0⟩ with
  | none =>
    have : (runAll cfgBoom boomProg [] ⟨[], world0⟩).isSome = true := by decide +kernel
    rw [h] at this; cases this
  | some r =>
    have : (runAll cfgBoom boomProg [] ⟨[], world0⟩).map (fun r => (r.1.length,
        r.1.all fun e => match e.1 with | .on _ .clear => false | _ => true)) = some (7, true) := by
      decide +kernel
    rw [h] at this
    simp only [Option.map_some, Option.some.injEq, Prod.mk.injEq, List.all_eq_true] at this
    refine ⟨r.1, r.2, runAll_reaches boomProg .start h, ⟨rfl, fun _ => rfl, rfl⟩, this.1, ?_⟩
    intro e he x hx
    have := this.2 e he
    rw [hx] at this
    cases this

end Lokky
