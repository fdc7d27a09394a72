import Verif.Proofs.BorrowsUrc

/-!
# C139: reference counters keep to the aliasing rules of Rust

"A program that only makes safe calls on `Rc`s, `Arc`s or `Urc`s never uses a pointer that Stacked
Borrows does not allow it to use: the references it got from one handle stay usable while it works
with other handles of the same value." Proved for `Rc` and `Arc`. For `Urc` it is refuted: every
`Urc` has a reference to the value in its field `data`, and `get_mut`, `make_mut` and dropping the
last handle of one fence make `&mut`s of the block, after which `data` must not be used. The calls
on `Urc` that keep to the rules are the subject of the `_partial` theorem.
-/

open Lokky.Alias

namespace Lokky.SB

/-- A program that works with the handles of an `Rc` or an `Arc`, in any order, and uses the
references it gets as long as the borrow checker lets it, keeps to the rules. -/
theorem C139_rc_arc_partial (k : Kind) (cs : List HCall) :
    ∃ g, (HProg.start (σ := St)).run k cs = some g := by
  obtain ⟨g, e, _⟩ := (Handles.hinv_start (σ := St)).run k cs
  exact ⟨g, e⟩

/-- In particular `get_mut` of the only handle gives a `&mut T` that can be written through, after
anything that was done before. -/
theorem C139_get_mut_partial (k : Kind) (cs : List HCall) (g : HProg St)
    (e : (HProg.start (σ := St)).run k cs = some g)
    (h1 : g.strong = 1) (h2 : g.weak = 0) (hn : g.hs.length = 1) :
    ∃ g' t g'', g.step k (.getMut 0) = some g' ∧ g'.hs = [([], some t)] ∧
      g'.step k (.write 0) = some g'' ∧ (Mach.writeAt t 0 1 g'.st).isSome = true :=
  Handles.getMut_write k cs g e h1 h2 hn

/-- What the calls do to the references the program has: those got from other handles stay (and so
can be used as before), `deref` adds one, `&h` ends the `&mut` got from `h`, `&mut h` ends all of
them, and dropped handles are gone. This is so under any aliasing rules. -/
theorem C139_refs_partial {σ : Type} [Mach σ] (k : Kind) (g g' : HProg σ) (c : HCall)
    (e : g.step k c = some g') :
    match c with
    | .deref h => ∀ r, g.hs[h]? = some r → ∃ t, g'.hs = g.hs.set h (r.1 ++ [t], none)
    | .read _ _ | .write _ | .dropWeak | .cloneWeak => g'.hs = g.hs
    | .getMut h => h < g.hs.length → ∃ t, g'.hs = g.hs.set h ([], t) ∧
        (t.isSome = true ↔ g.strong = 1 ∧ g.weak = 0)
    | .strongCount h | .weakCount h | .downgrade h =>
      ∀ r, g.hs[h]? = some r → g'.hs = g.hs.set h (r.1, none)
    | .clone h => ∀ r, g.hs[h]? = some r → g'.hs = g.hs.set h (r.1, none) ++ [([], none)]
    | .upgrade => k = .rc → 0 < g.wk → 0 < g.strong → g'.hs = g.hs ++ [([], none)]
    | .drop h => h < g.hs.length → g'.hs = g.hs.eraseIdx h
    | .tryUnwrap h => h < g.hs.length →
      g'.hs = if g.strong = 1 then g.hs.eraseIdx h else g.hs.set h ([], none)
    | .makeMut h => h < g.hs.length → (g.strong = 1 → g.weak = 0 →
        ∃ t, g'.hs = g.hs.set h ([], some t)) ∧
      (g.strong ≠ 1 → g'.hs = g.hs.eraseIdx h) := by
  cases c <;> simp only [HProg.step, HProg.call, HProg.endMut, HProg.endAll] at e ⊢
  case getMut h =>
    intro hl
    rw [List.getElem?_eq_getElem hl] at e
    have key : ∀ (b : Option Nat) (st : σ), (match k with
        | .rc => rcGetMut g.strong g.weak
        | .arc => arcGetMut g.strong g.weak) g.st = some (b, st) →
        (b.isSome = true ↔ g.strong = 1 ∧ g.weak = 0) := by
      intro b st eb
      by_cases hc : g.strong = 1 ∧ g.weak = 0
      · cases k <;> simp only [rcGetMut, arcGetMut, if_pos hc] at eb <;>
          obtain ⟨_, _, _, e2⟩ := bind_inv eb <;> obtain ⟨_, _, _, e3⟩ := bind_inv e2 <;>
          cases e3 <;> simp [hc]
      · cases k <;> simp only [rcGetMut, arcGetMut, if_neg hc] at eb <;>
          obtain ⟨_, _, _, e2⟩ := bind_inv eb <;> cases e2 <;> simp [hc]
    simp only at e
    split at e
    · rename_i b st eb
      cases e
      exact ⟨b, rfl, key b st eb⟩
    · cases e
  case makeMut h =>
    intro hl
    rw [List.getElem?_eq_getElem hl] at e
    simp only at e
    refine ⟨fun h1 h2 => ?_, fun h1 => ?_⟩
    · rw [if_pos h1, if_pos h2] at e
      split at e
      · rename_i b st eb
        cases e
        exact ⟨b, rfl⟩
      · cases e
    · rw [if_neg h1] at e
      split at e
      · cases e; rfl
      · cases e
  case tryUnwrap h =>
    intro hl
    rw [List.getElem?_eq_getElem hl] at e
    simp only at e
    cases k <;> simp only at e <;> split at e
    · cases e; split <;> rfl
    · cases e
    · cases e; split <;> rfl
    · cases e
  all_goals
    try intro h1
    try intro h2
    try intro h3
    try rw [List.getElem?_eq_getElem h1] at e
    try simp only [h2] at e
    repeat' split at e
  all_goals first
    | (cases e; done)
    | (cases e; first | rfl | exact ⟨_, rfl⟩)
    | (exfalso; simp_all; done)

/-- The counters are what they should be: no more handles than the strong count says, no more
`Weak`s than the weak count; exactly as many `Arc`s, exactly as many `rc::Weak`s. (The last `Rc`
leaves its count at 1, and `arc::Weak` has no destructor.) This is so under any aliasing rules. -/
theorem C139_counts_partial {σ : Type} [Mach σ] (k : Kind) (cs : List HCall) (g : HProg σ)
    (e : (HProg.start (σ := σ)).run k cs = some g) :
    g.hs.length ≤ g.strong ∧ g.wk ≤ g.weak ∧ (k = .arc → g.strong = g.hs.length) ∧
      (k = .rc → g.weak = g.wk) := by
  have : ∀ (cs : List HCall) (g0 : HProg σ), g0.hs.length ≤ g0.strong → g0.wk ≤ g0.weak →
      (k = .arc → g0.strong = g0.hs.length) → (k = .rc → g0.weak = g0.wk) →
      g0.run k cs = some g → g.hs.length ≤ g.strong ∧ g.wk ≤ g.weak ∧
        (k = .arc → g.strong = g.hs.length) ∧ (k = .rc → g.weak = g.wk) := by
    intro cs
    induction cs with
    | nil =>
      intro g0 h1 h2 h3 h4 e
      cases e
      exact ⟨h1, h2, h3, h4⟩
    | cons c cs ih =>
      intro g0 h1 h2 h3 h4 e
      simp only [HProg.run] at e
      split at e
      · rename_i g1 e1
        obtain ⟨a, b, c', d⟩ := Handles.step_counts k g0 g1 c e1 h1 h2 h3 h4
        exact ih g1 a b c' d e
      · cases e
  exact this cs HProg.start (Nat.le_refl _) (Nat.le_refl _) (fun _ => rfl) (fun _ => rfl) e

/-- The states that programs with `Urc`s get to. -/
def UReached (g : UProg St) : Prop := ∃ g0 cs, UProg.start (σ := St) = some g0 ∧ g0.run cs = some g

theorem UReached.uinv {g : UProg St} (h : UReached g) : UInv g := by
  obtain ⟨g0, cs, e0, e⟩ := h
  obtain ⟨g1, e1, h1⟩ := uinv_start
  rw [e1] at e0
  cases e0
  obtain ⟨g2, e2, h2⟩ := h1.run cs
  rw [e] at e2
  cases e2
  exact h2

/-- A program that clones, dereferences, asks for counts, downgrades, makes fences for other
threads, asks in vain for a `&mut`, and drops handles that are not the last of their fence, in any
order, keeps to the rules. -/
theorem C139_urc_partial (cs : List UCall) :
    ∃ g0 g, UProg.start (σ := St) = some g0 ∧ g0.run cs = some g := by
  obtain ⟨g0, e0, h0⟩ := uinv_start
  obtain ⟨g, e, _⟩ := h0.run cs
  exact ⟨g0, g, e0, e⟩

/-- What these calls do to the references the program has: `&T`s and `Weak`s stay (and so can be
used as before) but for the `Weak` that is dropped. This is so under any aliasing rules. -/
theorem C139_urc_refs_partial {σ : Type} [Mach σ] (g g' : UProg σ) (c : UCall)
    (e : g.step c = some g') :
    g'.d = g.d ∧
    (match c with
      | .deref => ∃ t, g'.shr = g.shr ++ [t]
      | _ => g'.shr = g.shr) ∧
    (match c with
      | .envelop n => g'.n = if n < g.n then g.n + 1 else g.n
      | _ => g'.n = g.n) ∧
    (match c with
      | .downgrade n => n < g.n → ∃ w, g'.weaks = g.weaks ++ [w] ∧ w.f = fenceAt n
      | .weakDrop j | .weakDropLast j _ => g'.weaks = g.weaks.eraseIdx j
      | _ => g'.weaks = g.weaks) := by
  cases c <;> simp only [UProg.step, UProg.call] at e
  case downgrade n =>
    split at e
    · split at e
      · rename_i hn _ w st ew
        cases e
        refine ⟨rfl, rfl, rfl, fun _ => ⟨w, rfl, ?_⟩⟩
        simp only [urcDowngrade] at ew
        obtain ⟨_, _, _, e1⟩ := bind_inv ew
        obtain ⟨_, _, _, e2⟩ := bind_inv e1
        obtain ⟨_, _, _, e3⟩ := bind_inv e2
        cases e3
        rfl
      · cases e
    · rename_i hn
      cases e
      exact ⟨rfl, rfl, rfl, fun h => absurd h hn⟩
  all_goals repeat' split at e
  all_goals first
    | (cases e; done)
    | (cases e; refine ⟨rfl, ?_, ?_, ?_⟩ <;> simp_all <;> done)
    | (cases e; simp_all [List.eraseIdx_of_length_le]; done)

/-- `get_mut` of an `Urc` works, and so does the `&mut T`; but the next `*u` breaks the rules. -/
theorem C139_urc_get_mut_refuted (g : UProg St) (h : UReached g) (n : Nat) (hn : n < g.n) :
    ∃ t s1 s2, urcGetMut (fenceAt n) g.st = some (t, s1) ∧ Mach.writeAt t 0 1 s1 = some ((), s2) ∧
      urcDeref g.d s1 = none ∧ urcDeref g.d s2 = none :=
  h.uinv.getMut hn

/-- `make_mut` of an `Urc` that makes a new one (it is not the only handle of the value) works, and
so does the `&mut T`; but the next `*u` breaks the rules. -/
theorem C139_urc_make_mut_refuted :
    ∃ d t s1 s2, urcMakeMutNew (Mach.heap 6 : St) = some ((d, t), s1) ∧
      Mach.writeAt t 0 1 s1 = some ((), s2) ∧ urcDeref d s1 = none ∧ urcDeref d s2 = none :=
  makeMutNew

/-- Dropping the last handle of one fence breaks the rules for all the others: neither `*u` nor the
references got before can be used any longer. -/
theorem C139_urc_drop_refuted (g : UProg St) (h : UReached g) (n : Nat) (hn : n < g.n) :
    ∃ s, urcDropFence (fenceAt n) false g.st = some ((), s) ∧ urcDeref g.d s = none ∧
      ∀ t ∈ g.shr, Mach.readAt t 0 1 s = none :=
  h.uinv.dropFence hn false

/-- `make_mut` of the only `Urc` of a value that has `Weak`s makes the `Weak`s unusable: their next
use breaks the rules. -/
theorem C139_urc_weak_refuted (g : UProg St) (h : UReached g) (w : UWeak) (hw : w ∈ g.weaks) :
    ∃ s, urcMoveOut w.f g.d g.st = some ((), s) ∧ weakFence w s = none ∧
      weakLoad w 1 s = none ∧ weakLoad w 2 s = none := by
  obtain ⟨s, e, hn⟩ := h.uinv.moveOut hw
  exact ⟨s, e, hn, by simp only [weakLoad]; exact bind_none hn,
    by simp only [weakLoad]; exact bind_none hn⟩

/-! ## Examples -/

/-- Two handles, a reference of each, both are read while the other handle is used, then one is
dropped, and the other is written. -/
example (k : Kind) : ∃ g, (HProg.start (σ := St)).run k [.clone 0, .deref 0, .deref 1, .downgrade 0, .read 1 0,
    .strongCount 1, .read 0 0, .drop 1, .read 0 0, .getMut 0, .write 0] = some g :=
  C139_rc_arc_partial k _

/-- The `&mut T` of `get_mut` is really there and written through. -/
example : (((HProg.start (σ := St)).run .arc [.clone 0, .deref 0, .drop 1, .getMut 0, .write 0]).map
    fun g => (g.strong, g.hs.map fun r => (r.1.length, r.2.isSome))) = some (1, [(0, true)]) := by
  decide +kernel

/-- A reference of one handle is usable after another handle was cloned, dropped and asked for a
`&mut`. -/
example : (((HProg.start (σ := St)).run .rc [.clone 0, .deref 0, .getMut 1, .clone 1, .drop 1, .read 0 0]).map
    fun g => (g.strong, g.hs.map fun r => r.1.length)) = some (2, [1, 0]) := by
  decide +kernel

/-- A program with a fence for another thread, references and a `Weak`. -/
example : (((UProg.start (σ := St)).bind fun g => g.run [.deref, .clone 0, .envelop 0, .downgrade 1, .deref,
    .weakCounts 0, .getMutNone 1, .read 0, .drop 0, .read 1]).map
    fun g => (g.n, g.shr.length, g.weaks.length)) = some (2, 2, 1) := by
  decide +kernel

/-- The program of the repository's own test `manually_share_urc` (urc.rs 652-673): another thread gets an
`Urc` and drops it before this thread looks at the value. -/
example : ∃ g s, UReached g ∧ urcDropFence (fenceAt 1) false g.st = some ((), s) ∧
    urcDeref g.d s = none := by
  obtain ⟨g0, g, e0, e⟩ := C139_urc_partial [.envelop 0]
  have hr : UReached g := ⟨g0, _, e0, e⟩
  have hn : 1 < g.n := by
    simp only [UProg.run, UProg.step] at e
    have h1 : g0.n = 1 := by
      simp only [UProg.start] at e0
      split at e0
      · cases e0; rfl
      · cases e0
    simp only [h1, Nat.zero_lt_one, if_true, UProg.call] at e
    split at e
    · rename_i e'
      split at e'
      · cases e'; cases e; simp
      · cases e'
    · cases e
  obtain ⟨s, es, ed, _⟩ := C139_urc_drop_refuted g hr 1 hn
  exact ⟨g, s, hr, es, ed⟩

end Lokky.SB
