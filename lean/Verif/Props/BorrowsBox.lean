import Verif.Proofs.BorrowsBox
import Verif.Proofs.TreeBox

/-!
# C152: boxes keep to the aliasing rules of Rust

"A program that only makes safe calls on a `Box`, of a value, a slice or a `str`, and uses the references it gets as long as the borrow
checker lets it, never uses a pointer that it must not use." Proved for Stacked Borrows and for Tree Borrows.
-/

open Lokky.Alias

namespace Lokky

/-- C152, Stacked Borrows: a box of `n` slots can be made, and every program with it keeps to the rules. -/
theorem C152_stacked (n : Nat) (cs : List BxCall) :
    ∃ g g' : BxProg SB.St, BxProg.start n = some g ∧ g.n = n ∧ g.ptr = some 0 ∧ g.run cs = some g' := by
  obtain ⟨g, e, h, hp, hn, _⟩ := Boxes.start_ok (σ := SB.St) n
  obtain ⟨g', e', _⟩ := Boxes.run_ok h cs
  exact ⟨g, g', e, hn, hp, e'⟩

/-- C152, Tree Borrows. -/
theorem C152_tree (n : Nat) (cs : List BxCall) :
    ∃ g g' : BxProg TB.St, BxProg.start n = some g ∧ g.n = n ∧ g.ptr = some 0 ∧ g.run cs = some g' := by
  obtain ⟨g, e, h, hp, hn, _⟩ := Boxes.start_ok (σ := TB.St) n
  obtain ⟨g', e', _⟩ := Boxes.run_ok h cs
  exact ⟨g, g', e, hn, hp, e'⟩

/-- What the calls do to the references the program has, under any rules: `&*b` adds a `&T` and leaves the others; `&mut *b` gives a `&mut T`
and ends the others; using a reference ends none. So the programs of C152 do use their references. -/
theorem C152_refs {σ : Type} [Mach σ] (g g' : BxProg σ) (c : BxCall) {p : Nat} (hp : g.ptr = some p) (e : g.step c = some g') :
    g'.n = g.n ∧
    match c with
    | .deref => ∃ t, g'.refs = g.refs ++ [t] ∧ g'.mref = none ∧ g'.ptr = g.ptr ∧ bxDeref p g.n g.st = some (t, g'.st)
    | .read j i => g'.refs = g.refs ∧ g'.mref = g.mref ∧ g'.ptr = g.ptr ∧
      ∀ t, g.refs[j]? = some t → i < g.n → Mach.readAt t i 1 g.st = some ((), g'.st)
    | .derefMut => ∃ t, g'.refs = [] ∧ g'.mref = some t ∧ g'.ptr = g.ptr ∧ bxDerefMut p g.n g.st = some (t, g'.st)
    | .readMut i => g'.refs = g.refs ∧ g'.mref = g.mref ∧ g'.ptr = g.ptr ∧
      ∀ t, g.mref = some t → i < g.n → Mach.readAt t i 1 g.st = some ((), g'.st)
    | .write i => g'.refs = g.refs ∧ g'.mref = g.mref ∧ g'.ptr = g.ptr ∧
      ∀ t, g.mref = some t → i < g.n → Mach.writeAt t i 1 g.st = some ((), g'.st)
    | .dropOld i => g'.refs = g.refs ∧ g'.mref = g.mref ∧ g'.ptr = g.ptr ∧
      ∀ t, g.mref = some t → i < g.n → dropAt t i g.st = some ((), g'.st)
    | .toBytes => ∃ q, g'.ptr = some q ∧ g'.refs = [] ∧ g'.mref = none ∧ bxToBytes p g.n g.st = some (q, g'.st)
    | .drop => g'.ptr = none ∧ bxDrop p g.n g.st = some ((), g'.st)
    | .intoInner => g'.ptr = none ∧ bxIntoInner p g.n g.st = some ((), g'.st) := by
  have key : ∀ {β : Type} (m : M σ β) (k : β → BxProg σ → BxProg σ), g.call m k = some g' →
      ∃ b st, m g.st = some (b, st) ∧ g' = k b { g with st := st } := by
    intro β m k h
    unfold BxProg.call at h
    split at h
    · rename_i b st eb
      exact ⟨b, st, eb, by cases h; rfl⟩
    · cases h
  simp only [BxProg.step, hp] at e
  cases c <;> simp only at e ⊢
  case deref => obtain ⟨b, st, e1, rfl⟩ := key _ _ e; exact ⟨rfl, b, rfl, rfl, rfl, e1⟩
  case derefMut => obtain ⟨b, st, e1, rfl⟩ := key _ _ e; exact ⟨rfl, b, rfl, rfl, rfl, e1⟩
  case toBytes => obtain ⟨b, st, e1, rfl⟩ := key _ _ e; exact ⟨rfl, b, rfl, rfl, rfl, e1⟩
  case drop => obtain ⟨b, st, e1, rfl⟩ := key _ _ e; exact ⟨rfl, rfl, e1⟩
  case intoInner => obtain ⟨b, st, e1, rfl⟩ := key _ _ e; exact ⟨rfl, rfl, e1⟩
  case read j i =>
    split at e
    · rename_i t ht
      split at e
      · obtain ⟨b, st, e1, rfl⟩ := key _ _ e
        exact ⟨rfl, rfl, rfl, rfl, fun u hu _ => by rw [ht] at hu; cases hu; exact e1⟩
      · rename_i hi
        cases e
        exact ⟨rfl, rfl, rfl, rfl, fun _ _ h => absurd h hi⟩
    · rename_i ht
      cases e
      exact ⟨rfl, rfl, rfl, rfl, fun u hu _ => by rw [ht] at hu; cases hu⟩
  all_goals
    rename_i i
    split at e
    · rename_i t ht
      split at e
      · obtain ⟨b, st, e1, rfl⟩ := key _ _ e
        exact ⟨rfl, rfl, rfl, rfl, fun u hu _ => by rw [ht] at hu; cases hu; exact e1⟩
      · rename_i hi
        cases e
        exact ⟨rfl, rfl, rfl, rfl, fun _ _ h => absurd h hi⟩
    · rename_i ht
      cases e
      exact ⟨rfl, rfl, rfl, rfl, fun u hu _ => by rw [ht] at hu; cases hu⟩

/-- C152: after any program, the box, if it is still there, gives a `&mut T` that every slot can be written through, under both rules. -/
theorem C152_write (n : Nat) (cs : List BxCall) {i : Nat} (hi : i < n) :
    (∃ g g' : BxProg SB.St, BxProg.start n = some g ∧ g.run cs = some g' ∧ ∀ p, g'.ptr = some p →
      ∃ t s s', Mach.mutRef p 0 n g'.st = some (t, s) ∧ Mach.writeAt t i 1 s = some ((), s')) ∧
    (∃ g g' : BxProg TB.St, BxProg.start n = some g ∧ g.run cs = some g' ∧ ∀ p, g'.ptr = some p →
      ∃ t s s', Mach.mutRef p 0 n g'.st = some (t, s) ∧ Mach.writeAt t i 1 s = some ((), s')) :=
  ⟨aux, aux⟩
where
  aux {σ : Type} [Mach σ] [BxRules σ] : ∃ g g' : BxProg σ, BxProg.start n = some g ∧ g.run cs = some g' ∧ ∀ p, g'.ptr = some p →
      ∃ t s s', Mach.mutRef p 0 n g'.st = some (t, s) ∧ Mach.writeAt t i 1 s = some ((), s') := by
    obtain ⟨g, e, h, hp, hn, _⟩ := Boxes.start_ok (σ := σ) n
    obtain ⟨g', e', h'⟩ := Boxes.run_ok h cs
    have hn' : g'.n = n := (run_n cs g g' e').trans hn
    refine ⟨g, g', e, e', fun p hp' => ?_⟩
    obtain ⟨t, s, e1, h1⟩ := BxRules.mutr _ _ _ (h'.own p hp')
    obtain ⟨s', e2, _⟩ := BxRules.write _ _ _ _ i 1 h1 (by omega)
    exact ⟨t, s, s', by rw [← hn']; exact e1, e2⟩
  run_n {σ : Type} [Mach σ] : ∀ (cs : List BxCall) (g g' : BxProg σ), g.run cs = some g' → g'.n = g.n
    | [], g, g', e => by cases e; rfl
    | c :: cs, g, g', e => by
      simp only [BxProg.run] at e
      split at e
      · rename_i g1 e1
        rw [run_n cs g1 g' e]
        rcases hp : g.ptr with _ | p
        · simp only [BxProg.step, hp] at e1
          cases e1
          rfl
        · exact (C152_refs g g1 c hp e1).1
      · cases e

/-! ## Non-trivial cases -/

/-- A box of three elements that is read through two references, written, turned into bytes, written and dropped. -/
def bxSample : List BxCall := [.deref, .deref, .read 0 2, .read 1 0, .derefMut, .write 1, .readMut 2, .dropOld 1, .write 1, .deref, .read 0 1,
  .toBytes, .deref, .read 0 2, .derefMut, .write 0, .drop]

/-- Does the program keep to the rules, and is the box there at the end? -/
def bxRuns (σ : Type) [Mach σ] (n : Nat) (cs : List BxCall) : Option Bool :=
  match (BxProg.start n : Option (BxProg σ)) with
  | some g => (g.run cs).map fun g => g.ptr.isSome
  | none => none

example : bxRuns SB.St 3 bxSample = some false ∧ bxRuns TB.St 3 bxSample = some false ∧
    bxRuns SB.St 3 bxSample.dropLast = some true ∧ bxRuns TB.St 3 bxSample.dropLast = some true := by decide +kernel

/-- The rules do forbid something: reading through a `&T` after the box has been written to. -/
example : ((BxProg.start 2 : Option (BxProg SB.St)).bind fun g => (bxDeref 0 2 g.st).bind fun r => (bxDerefMut 0 2 r.2).bind fun m =>
      (Mach.writeAt m.1 0 1 m.2).bind fun w => Mach.readAt r.1 0 1 w.2).isSome = false ∧
    ((BxProg.start 2 : Option (BxProg TB.St)).bind fun g => (bxDeref 0 2 g.st).bind fun r => (bxDerefMut 0 2 r.2).bind fun m =>
      (Mach.writeAt m.1 0 1 m.2).bind fun w => Mach.readAt r.1 0 1 w.2).isSome = false := by decide +kernel

/-- Nor may the `str` that a box of bytes was made from be used any more once the bytes have been written to. -/
example : ((BxProg.start 2 : Option (BxProg SB.St)).bind fun g => (bxDeref 0 2 g.st).bind fun r => (bxToBytes 0 2 r.2).bind fun q =>
      (bxDerefMut q.1 2 q.2).bind fun m => (Mach.writeAt m.1 0 1 m.2).bind fun w => Mach.readAt r.1 0 1 w.2).isSome = false ∧
    ((BxProg.start 2 : Option (BxProg TB.St)).bind fun g => (bxDeref 0 2 g.st).bind fun r => (bxToBytes 0 2 r.2).bind fun q =>
      (bxDerefMut q.1 2 q.2).bind fun m => (Mach.writeAt m.1 0 1 m.2).bind fun w => Mach.readAt r.1 0 1 w.2).isSome = false := by
  decide +kernel

end Lokky
