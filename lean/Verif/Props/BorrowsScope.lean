import Verif.Proofs.BorrowsScope
import Verif.Proofs.BorrowsScopeProtect

/-!
# C153: scopes keep to the aliasing rules of Rust

"A program that spawns scopes and allocates in them never uses a reference to the environment that it must not use." The code violates it,
by Stacked Borrows and by Tree Borrows: `Env::spawn` holds a `&mut Env` while it runs the function it is given, everything that
allocates in this function makes another `&mut Env`, and then `spawn` restores `cur` through the first one.

These machines have no protectors, the further rules for references that are arguments of a running function; here this is the `&mut self`
of `Env::spawn`. `C153_protected_partial` is for Stacked Borrows with them: a `scope_init` or function that uses the environment breaks
the rules then even if it unwinds. Tree Borrows with protectors is not modelled, so `C153_tree_partial` is exact without them only.
-/

open Lokky.Alias

namespace Lokky

/-- C153, refuted by Stacked Borrows: whatever the program did before, a `spawn` whose `scope_init` or function uses the environment
(allocates, asks for the current scope, or spawns) and returns breaks the rules. -/
theorem C153_stacked_refuted (before init body : EnvCode) (p : Bool) (s : SB.St) (e : before.run (Mach.heap 1) = some (p, s))
    (hi : init.panics = false) (hu : init.Uses ∨ body.Uses ∧ body.panics = false) : (EnvCode.spawn init body).run s = none := by
  have hs : SB.Inv .srw 1 s := by
    obtain ⟨h1, h2⟩ := SB.env_ran before (Mach.heap 1) (SB.inv_fresh (.inr rfl) 1)
    by_cases hq : SB.EnvQuiet before
    · obtain ⟨s', e', r⟩ := h1 hq
      rw [e] at e'; cases e'; exact r.inv
    · rw [h2 hq] at e; cases e
  refine (SB.env_ran _ s hs).2 ?_
  rintro ⟨_, h⟩
  obtain ⟨h1, _, h2⟩ := h hi
  exact hu.elim h1 fun x => h2 x.2 x.1

/-- C153, refuted by Tree Borrows: the same if the function uses the environment, or `scope_init` enters a scope. -/
theorem C153_tree_refuted (before init body : EnvCode) (p : Bool) (s : TB.St) (e : before.run (Mach.heap 1) = some (p, s))
    (hi : init.panics = false) (hu : init.Enters ∨ body.Uses ∧ body.panics = false) : (EnvCode.spawn init body).run s = none := by
  have hs : TB.Inv s ∧ s.live 0 = true := by
    obtain ⟨h1, h2⟩ := TB.env_ran before (Mach.heap 1) (TB.inv_fresh 1) rfl
    by_cases hq : TB.EnvQuiet before
    · obtain ⟨s', e', r⟩ := h1 hq
      rw [e] at e'; cases e'; exact ⟨r.inv, r.live⟩
    · rw [h2 hq] at e; cases e
  refine (TB.env_ran _ s hs.1 hs.2).2 ?_
  rintro ⟨_, h⟩
  obtain ⟨h1, _, h2⟩ := h hi
  exact hu.elim h1 fun x => h2 x.2 x.1

/-- C153, Stacked Borrows, what holds instead: a program keeps to the rules exactly if no `scope_init` and no function given to `spawn`
uses the environment and then returns; it unwinds or returns as it says. Missing for the whole of C153: programs that allocate within a
`spawn`, refuted above. -/
theorem C153_stacked_partial (c : EnvCode) (p : Bool) :
    (∃ s : SB.St, c.run (Mach.heap 1) = some (p, s)) ↔ SB.EnvQuiet c ∧ p = c.panics := by
  obtain ⟨h1, h2⟩ := SB.env_ran c (Mach.heap 1) (SB.inv_fresh (.inr rfl) 1)
  constructor
  · rintro ⟨s, e⟩
    by_cases hq : SB.EnvQuiet c
    · obtain ⟨s', e', _⟩ := h1 hq
      rw [e] at e'; cases e'; exact ⟨hq, rfl⟩
    · rw [h2 hq] at e; cases e
  · rintro ⟨hq, rfl⟩
    obtain ⟨s, e, _⟩ := h1 hq
    exact ⟨s, e⟩

/-- C153, Tree Borrows, what holds instead: a program keeps to the rules exactly if no `scope_init` enters a scope and then returns, and no
function given to `spawn` uses the environment and then returns. Missing as for Stacked Borrows. -/
theorem C153_tree_partial (c : EnvCode) (p : Bool) :
    (∃ s : TB.St, c.run (Mach.heap 1) = some (p, s)) ↔ TB.EnvQuiet c ∧ p = c.panics := by
  obtain ⟨h1, h2⟩ := TB.env_ran c (Mach.heap 1) (TB.inv_fresh 1) rfl
  constructor
  · rintro ⟨s, e⟩
    by_cases hq : TB.EnvQuiet c
    · obtain ⟨s', e', _⟩ := h1 hq
      rw [e] at e'; cases e'; exact ⟨hq, rfl⟩
    · rw [h2 hq] at e; cases e
  · rintro ⟨hq, rfl⟩
    obtain ⟨s, e, _⟩ := h1 hq
    exact ⟨s, e⟩

/-- C153, refuted by Stacked Borrows with protectors: whatever the program did before, a `spawn` whose `scope_init` or function uses the
environment breaks the rules, whether it returns or unwinds. -/
theorem C153_protected_refuted (before init body : EnvCode) (p : Bool) (s : SB.St)
    (e : SB.runP before (Mach.heap 1, []) = some (p, (s, []))) (hu : init.Uses ∨ init.panics = false ∧ body.Uses) :
    SB.runP (.spawn init body) (s, []) = none := by
  have hs : SB.Inv .srw 1 s := by
    obtain ⟨h1, h2⟩ := SB.protect_ran before (Mach.heap 1) (SB.inv_fresh (.inr rfl) 1)
    by_cases hq : SB.EnvStill before
    · obtain ⟨s', e', r⟩ := h1 hq
      rw [e] at e'; cases e'; exact r
    · rw [h2 hq] at e; cases e
  refine (SB.protect_ran _ s hs).2 ?_
  rintro ⟨h1, h2⟩
  exact hu.elim h1 fun x => h2 x.1 x.2

/-- C153, Stacked Borrows with protectors, what holds instead: a program keeps to the rules exactly if nothing that runs within a `spawn`
uses the environment. Nothing is protected afterwards. Missing as above. -/
theorem C153_protected_partial (c : EnvCode) (p : Bool) (l : List Nat) :
    (∃ s, SB.runP c (Mach.heap 1, []) = some (p, (s, l))) ↔ SB.EnvStill c ∧ p = c.panics ∧ l = [] := by
  obtain ⟨h1, h2⟩ := SB.protect_ran c (Mach.heap 1) (SB.inv_fresh (.inr rfl) 1)
  constructor
  · rintro ⟨s, e⟩
    by_cases hq : SB.EnvStill c
    · obtain ⟨s', e', _⟩ := h1 hq
      rw [e] at e'; cases e'; exact ⟨hq, rfl, rfl⟩
    · rw [h2 hq] at e; cases e
  · rintro ⟨hq, rfl, rfl⟩
    obtain ⟨s, e, _⟩ := h1 hq
    exact ⟨s, e⟩

/-- With protectors, a function that allocates and then panics breaks the rules; one that only panics does not. -/
example : (SB.runP (.caught (.spawn .skip (.seq .current .panic))) (Mach.heap 1, [])).isNone = true ∧
    (SB.runP (.seq (.caught (.spawn .skip .panic)) (.seq .current (.spawn .skip .skip))) (Mach.heap 1, [])).isSome = true := by
  decide +kernel

/-- C153, Stacked Borrows: a `&Env` from `env()`, made at any time, can be read through after code has run exactly if the code did not
use the environment. Even `current`, which only reads, ends it, as it makes a `&mut Env` first. -/
theorem C153_held_stacked (before c : EnvCode) (p : Bool) (s : SB.St) (e : before.run (Mach.heap 1) = some (p, s)) (hq : SB.EnvQuiet c) :
    ∃ t s1 s2, envRef s = some (t, s1) ∧ c.run s1 = some (c.panics, s2) ∧
      ((Mach.readAt t 0 1 s2).isSome = true ↔ ¬ c.Uses) := by
  have hi : SB.Inv .srw 1 s := by
    obtain ⟨h1, h2⟩ := SB.env_ran before (Mach.heap 1) (SB.inv_fresh (.inr rfl) 1)
    by_cases hb : SB.EnvQuiet before
    · obtain ⟨s', e', r⟩ := h1 hb
      rw [e] at e'; cases e'; exact r.inv
    · rw [h2 hb] at e; cases e
  obtain ⟨s1, e1, h1, n1, k1⟩ := SB.env_ref hi
  obtain ⟨s2, e2, r2⟩ := (SB.env_ran c s1 h1).1 hq
  refine ⟨_, s1, s2, e1, e2, fun hr hu => ?_, fun hu => ?_⟩
  · rw [SB.readAt_none (i := 0) (by omega) (by omega) (r2.gone hu _ (by omega) (by omega))] at hr
    cases hr
  · rw [r2.same hu]; exact k1

/-- C153, Tree Borrows: such a `&Env` survives `current`, and ends when a scope is spawned. -/
theorem C153_held_tree (before c : EnvCode) (p : Bool) (s : TB.St) (e : before.run (Mach.heap 1) = some (p, s)) (hq : TB.EnvQuiet c) :
    ∃ t s1 s2, envRef s = some (t, s1) ∧ c.run s1 = some (c.panics, s2) ∧
      ((Mach.readAt t 0 1 s2).isSome = true ↔ ¬ c.Enters) ∧ Mach.writeAt t 0 1 s2 = none := by
  have hi : TB.Inv s ∧ s.live 0 = true := by
    obtain ⟨h1, h2⟩ := TB.env_ran before (Mach.heap 1) (TB.inv_fresh 1) rfl
    by_cases hb : TB.EnvQuiet before
    · obtain ⟨s', e', r⟩ := h1 hb
      rw [e] at e'; cases e'; exact ⟨r.inv, r.live⟩
    · rw [h2 hb] at e; cases e
  obtain ⟨s1, e1, h1, n1, k1, p1, f1⟩ := TB.env_ref hi.1 hi.2
  obtain ⟨s2, e2, r2⟩ := (TB.env_ran c s1 h1 k1.1).1 hq
  have hm : s.next + 1 ∈ s2.path (s.next + 1) := by rw [r2.path _ (by omega)]; exact p1
  refine ⟨_, s1, s2, e1, e2, ⟨fun hr hs => ?_, fun hs => ?_⟩, ?_⟩
  · have hd := r2.lost hs (s.next + 1) (by omega) (by omega)
    rw [TB.get_none hm (by rw [hd]; rfl)] at hr
    cases hr
  · rw [TB.Bx.readAt_ok fun i _ hi => by
      have : i = 0 := by omega
      subst this; exact k1.at h1 (by omega) (r2.rd hs)]
    rfl
  · refine TB.set_none hm ?_
    by_cases hs : c.Enters
    · rw [r2.lost hs (s.next + 1) (by omega) (by omega)]; rfl
    · rcases (r2.rd hs).perm (s.next + 1) (by omega) with e | ⟨_, e⟩
      · rw [e, f1]; rfl
      · rw [e]; rfl

/-- A `&Env` held during a call of `current`: lost by the first rules, kept by the second; lost by both after a `spawn`. -/
example : (((do let t ← envRef; let _ ← EnvCode.current.run; Mach.readAt t 0 1 : SB.B Unit)) (Mach.heap 1)).isNone = true ∧
    (((do let t ← envRef; let _ ← EnvCode.current.run; Mach.readAt t 0 1 : TB.B Unit)) (Mach.heap 1)).isSome = true ∧
    (((do let t ← envRef; let _ ← (EnvCode.spawn .skip .skip).run; Mach.readAt t 0 1 : TB.B Unit)) (Mach.heap 1)).isNone = true := by
  decide +kernel

/-- `Box::new(1); spawn(|_| S, |_| Box::new(2))` breaks both rules. -/
example : (EnvCode.run (.seq .current (.spawn .skip .current)) : SB.B Bool) (Mach.heap 1) = none := by decide +kernel
example : (EnvCode.run (.seq .current (.spawn .skip .current)) : TB.B Bool) (Mach.heap 1) = none := by decide +kernel

/-- So does a `spawn` within a `spawn`, even if nothing allocates. -/
example : ((EnvCode.run (.spawn .skip (.spawn .skip .skip)) : SB.B Bool) (Mach.heap 1)).isNone = true ∧
    ((EnvCode.run (.spawn .skip (.spawn .skip .skip)) : TB.B Bool) (Mach.heap 1)).isNone = true := by decide +kernel

/-- A `scope_init` that allocates breaks the first only. -/
example : ((EnvCode.run (.spawn .current .skip) : SB.B Bool) (Mach.heap 1)).isNone = true ∧
    ((EnvCode.run (.spawn .current .skip) : TB.B Bool) (Mach.heap 1)).isSome = true := by decide +kernel

/-- Allocating before and after scopes that do not allocate keeps to both. -/
example : ((EnvCode.run (.seq .current (.seq (.spawn .skip .skip) (.seq .current (.spawn .skip .skip)))) : SB.B Bool) (Mach.heap 1)).isSome = true ∧
    ((EnvCode.run (.seq .current (.seq (.spawn .skip .skip) (.seq .current (.spawn .skip .skip)))) : TB.B Bool) (Mach.heap 1)).isSome = true := by
  decide +kernel

/-- A function that allocates and then panics does not break them (without protectors), as nothing is restored; caught within the function, it does. -/
example : ((EnvCode.run (.seq (.caught (.spawn .skip (.seq .current .panic))) .current) : SB.B Bool) (Mach.heap 1)).isSome = true ∧
    ((EnvCode.run (.seq (.caught (.spawn .skip (.seq .current .panic))) .current) : TB.B Bool) (Mach.heap 1)).isSome = true ∧
    ((EnvCode.run (.spawn .skip (.caught (.seq .current .panic))) : SB.B Bool) (Mach.heap 1)).isNone = true ∧
    ((EnvCode.run (.spawn .skip (.caught (.seq .current .panic))) : TB.B Bool) (Mach.heap 1)).isNone = true := by decide +kernel

end Lokky
