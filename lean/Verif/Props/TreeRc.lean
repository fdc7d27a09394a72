import Verif.Proofs.TreeUrc
import Verif.Props.BorrowsRc

/-!
# C141: reference counters keep to Tree Borrows

"A program that only makes safe calls on `Rc`s, `Arc`s or `Urc`s never uses a pointer that Tree
Borrows does not allow it to use." Proved for `Rc` and `Arc`. For `Urc` it is refuted: after a write
through the `&mut T` of `get_mut` or `make_mut` the reference in the field `data` must not be used,
and so the next `*u` breaks the rules. Programs with `Urc`s that do not write keep to the rules,
also those that Stacked Borrows forbids (C139): a fence may be dropped while others are used, and
`make_mut` leaves `Weak`s usable.

What the calls do to the references a program has, and that the counters are exact, is the same
under any aliasing rules, and stated in C139.
-/

open Lokky.Alias

namespace Lokky.TB

/-- A program that works with the handles of an `Rc` or an `Arc`, in any order, and uses the
references it gets as long as the borrow checker lets it, keeps to the rules. -/
theorem C141_rc_arc_partial (k : Kind) (cs : List HCall) :
    ∃ g, (HProg.start (σ := St)).run k cs = some g := by
  obtain ⟨g, e, _⟩ := (Handles.hinv_start (σ := St)).run k cs
  exact ⟨g, e⟩

/-- In particular `get_mut` of the only handle gives a `&mut T` that can be written through, after
anything that was done before. -/
theorem C141_get_mut_partial (k : Kind) (cs : List HCall) (g : HProg St)
    (e : (HProg.start (σ := St)).run k cs = some g) (h1 : g.strong = 1) (h2 : g.weak = 0)
    (hn : g.hs.length = 1) :
    ∃ g' t g'', g.step k (.getMut 0) = some g' ∧ g'.hs = [([], some t)] ∧
      g'.step k (.write 0) = some g'' ∧ (Mach.writeAt t 0 1 g'.st).isSome = true :=
  Handles.getMut_write k cs g e h1 h2 hn

/-- The states that programs with `Urc`s get to. -/
def UReached (g : UProg St) : Prop :=
  ∃ g0 cs, UProg.start (σ := St) = some g0 ∧ g0.runAll cs = some g

theorem UReached.uinv {g : UProg St} (h : UReached g) : UInv g := by
  obtain ⟨g0, cs, e0, e⟩ := h
  obtain ⟨g1, e1, h1⟩ := uinv_start
  rw [e1] at e0
  cases e0
  obtain ⟨g2, e2, h2⟩ := h1.runAll cs
  rw [e] at e2
  cases e2
  exact h2

/-- A program that does with `Urc`s and `Weak`s whatever it likes, but for writing through a
`&mut T`, keeps to the rules. -/
theorem C141_urc_partial (cs : List UAll) :
    ∃ g0 g, UProg.start (σ := St) = some g0 ∧ g0.runAll cs = some g := by
  obtain ⟨g0, e0, h0⟩ := uinv_start
  obtain ⟨g, e, _⟩ := h0.runAll cs
  exact ⟨g0, g, e0, e⟩

/-- What these calls do to the references the program has: `&T`s, `&mut T`s and `Weak`s stay (and so
can be used as before) but for a `Weak` that is dropped. This is so under any aliasing rules. -/
theorem C141_urc_refs_partial {σ : Type} [Mach σ] (g g' : UProg σ) (c : UAll)
    (e : g.stepAll c = some g') :
    g'.d = g.d ∧
    (match c with
      | .of .deref => ∃ t, g'.shr = g.shr ++ [t]
      | .getMut n => n < g.n → ∃ t, g'.shr = g.shr ++ [t]
      | _ => g'.shr = g.shr) ∧
    (match c with
      | .of (.envelop n) => g'.n = if n < g.n then g.n + 1 else g.n
      | _ => g'.n = g.n) ∧
    (match c with
      | .of (.downgrade n) => n < g.n → ∃ w, g'.weaks = g.weaks ++ [w] ∧ w.f = fenceAt n
      | .of (.weakDrop j) | .of (.weakDropLast j _) => g'.weaks = g.weaks.eraseIdx j
      | _ => g'.weaks = g.weaks) := by
  cases c with
  | of c =>
    have := SB.C139_urc_refs_partial g g' c e
    cases c <;> exact this
  | getMut n =>
    simp only [UProg.stepAll, UProg.call] at e
    repeat' split at e
    · cases e; exact ⟨rfl, fun _ => ⟨_, rfl⟩, rfl, rfl⟩
    · cases e
    · cases e; exact ⟨rfl, fun _ => by omega, rfl, rfl⟩
  | dropFence n last =>
    simp only [UProg.stepAll, UProg.call] at e
    repeat' split at e
    all_goals first
      | (cases e; done)
      | (cases e; exact ⟨rfl, rfl, rfl, rfl⟩)
  | moveOut n =>
    simp only [UProg.stepAll, UProg.call] at e
    repeat' split at e
    all_goals first
      | (cases e; done)
      | (cases e; exact ⟨rfl, rfl, rfl, rfl⟩)

/-- `get_mut` of an `Urc` works, and so does the `&mut T`; before a write `*u` still works, but after
one it breaks the rules. -/
theorem C141_urc_get_mut_refuted (g : UProg St) (h : UReached g) (n : Nat) (hn : n < g.n) :
    ∃ t s1 s2, urcGetMut (fenceAt n) g.st = some (t, s1) ∧
      Mach.writeAt t 0 1 s1 = some ((), s2) ∧
      (urcDeref g.d s1).isSome = true ∧ urcDeref g.d s2 = none :=
  h.uinv.getMut hn

/-- The same for `make_mut` that makes a new `Urc`. -/
theorem C141_urc_make_mut_refuted :
    ∃ d t s1 s2, urcMakeMutNew (Mach.heap 6 : St) = some ((d, t), s1) ∧
      Mach.writeAt t 0 1 s1 = some ((), s2) ∧
      (urcDeref d s1).isSome = true ∧ urcDeref d s2 = none :=
  makeMutNew

/-! ## Examples -/

/-- Two handles, a reference of each, both are read while the other handle is used, then one is
dropped, and the other is written. -/
example (k : Kind) : ∃ g, (HProg.start (σ := St)).run k [.clone 0, .deref 0, .deref 1,
    .downgrade 0, .read 1 0, .strongCount 1, .read 0 0, .drop 1, .read 0 0, .getMut 0,
    .write 0] = some g :=
  C141_rc_arc_partial k _

/-- The `&mut T` of `get_mut` is really there and written through. -/
example : (((HProg.start (σ := St)).run .rc [.clone 0, .deref 0, .drop 1, .getMut 0, .write 0]).map
    fun g => (g.strong, g.hs.map fun r => (r.1.length, r.2.isSome))) = some (1, [(0, true)]) := by
  decide +kernel

/-- If `Rc::get_mut` did not look at the count, the references of another handle would be lost. -/
example : ((do
    let t ← rcDeref
    let u ← rcAsMut
    Mach.writeAt u 0 1
    Mach.readAt t 0 1 : B Unit) (Mach.heap 3)).isNone = true := by decide +kernel

/-- A program of the repository's own test `manually_share_urc` (urc.rs 652-673), which Stacked
Borrows forbids: another thread drops its `Urc` before this thread looks at the value. -/
example : (((UProg.start (σ := St)).bind fun g => g.runAll [.of (.envelop 0), .of .deref,
    .dropFence 1 false, .of .deref, .of (.read 0), .of (.read 1)]).map
    fun g => (g.n, g.shr.length)) = some (2, 2) := by decide +kernel

/-- `get_mut`, reads through both the `&mut` and `*u`, a `Weak` that outlives `make_mut`. -/
example : (((UProg.start (σ := St)).bind fun g => g.runAll [.getMut 0, .of (.read 0), .of .deref,
    .of (.read 1), .of (.downgrade 0), .moveOut 0, .of (.weakCounts 0),
    .of (.weakDropLast 0 true)]).map
    fun g => (g.n, g.shr.length, g.weaks.length)) = some (1, 2, 0) := by decide +kernel

/-- The state in which `get_mut` is refuted: a new `Urc`, and one that was shared. -/
example : ∃ g, UReached g ∧ 0 < g.n := by
  obtain ⟨g0, g, e0, e⟩ := C141_urc_partial [.of (.clone 0), .of (.drop 0)]
  refine ⟨g, ⟨g0, _, e0, e⟩, ?_⟩
  have h0 : g0.n = 1 := by
    simp only [UProg.start] at e0
    split at e0
    · cases e0; rfl
    · cases e0
  simp only [UProg.runAll] at e
  split at e
  · rename_i g1 e1
    have h1 := (C141_urc_refs_partial g0 g1 _ e1).2.2.1
    split at e
    · rename_i g2 e2
      have h2 := (C141_urc_refs_partial g1 g2 _ e2).2.2.1
      cases e
      simp only at h1 h2
      omega
    · cases e
  · cases e

end Lokky.TB
