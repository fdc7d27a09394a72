import Verif.Proofs.RcTrace
import Verif.Props.Witness

/-!
# C51–C57: `Rc` and `Weak`

`RcReaches c ok hist P` says: a client that makes calls of `Rc` and `Weak` allowed by `ok`, catching
every panic, sees the history `hist` and arrives at the handles `P.hands` and the memory `P.w`.
`RcCmd.Callable` allows every call on handles the client has. `RcCmd.Tame` leaves out `make_mut` on the
only `Rc` handle of a value while it has `Weak` handles, and `RcCmd.Permitted` also `try_unwrap` while
there are `Weak` handles; these calls break C51, C52, C56 and C57, as shown below. `Spec.RcRuns` tells
which objects exist after a history, and their values (Verif/Spec/Rc.lean).

Histories are shorter than `usize::MAX`, so that the counts cannot overflow.
-/

namespace Lokky
open Spec
variable {α : Type} {c : Cfg α} {hist : RcHistory α} {P : RcPool α}

/-- `T::clone`, if it returns, returns an equal value. -/
abbrev FaithfulClone (c : Cfg α) : Prop := ∀ k a b, c.clone k a = some b → b = a

/-- 64-bit machine, release build. -/
def cfgRcRelease : Cfg Nat := { cfg64 with debug := false }
/-- Only the first request for memory is granted. -/
def cfgRcDeny : Cfg Nat := { cfg64 with grant := fun t _ => t == 0 }

theorem does_ok {S : RcState α} {cmd : RcCmd α} (h : RcSim.Does c P S cmd) :
    (∃ o P', runRc c cmd P = .ok o P' ∧ RcMove P S cmd (some o) P') ∨
    (∃ P', runRc c cmd P = .panic P' ∧ RcMove P S cmd none P') := by
  unfold RcSim.Does at h
  cases hr : runRc c cmd P with
  | ok o P' => rw [hr] at h; exact Or.inl ⟨o, P', rfl, h⟩
  | panic P' => rw [hr] at h; exact Or.inr ⟨P', rfl, h⟩
  | abort => rw [hr] at h; exact h.elim
  | ub u => rw [hr] at h; exact h.elim

/-! ## C51 -/

/-- Reading through a handle. -/
theorem RcSim.read_eq {S : RcState α} (I : RcSim P S) {h p : Nat}
    (hk : P.hands[h]? = some (some (.rc p))) :
    ∃ o, S.objs[p]? = some o ∧ runRc c (.read h) P = .ok (.val o.val) P := by
  obtain ⟨o, b, ho, hb, hp, hv, hw, hs, h1⟩ := I.atRc hk
  refine ⟨o, ho, ?_⟩
  simp only [runRc, hk, RcPool.look, RcPool.on, Rc.asRef_eq hb, hv]

/-- C51 for permitted histories. Reading through an `Rc` handle gives the value of its object after the
history, as specified, which was not moved out. -/
theorem C51_read_partial (h : RcReaches c RcCmd.Permitted hist P) (hcl : FaithfulClone c)
    (hl : hist.length + 1 < c.usizeMax) :
    ∃ S, RcRuns hist S ∧ P.hands = S.hands ∧ ∀ i p, P.hands[i]? = some (some (.rc p)) →
      ∃ o, S.objs[p]? = some o ∧ o.moved = false ∧ runRc c (.read i) P = .ok (.val o.val) P := by
  obtain ⟨S, hr, I, _, hS⟩ := h.sound hcl hl
  refine ⟨S, hr, I.hands, fun i p hk => ?_⟩
  obtain ⟨o, ho, e⟩ := I.read_eq (c := c) hk
  exact ⟨o, ho, hS.atRc (I.hands ▸ hk) ho, e⟩

/-- C51 for permitted histories: what the client sees is what is specified. -/
theorem C51_history_partial (h : RcReaches c RcCmd.Permitted hist P) (hcl : FaithfulClone c)
    (hl : hist.length + 1 < c.usizeMax) : ∃ S, RcRuns hist S ∧ P.hands = S.hands := by
  obtain ⟨S, hr, I, _, _⟩ := h.sound hcl hl
  exact ⟨S, hr, I.hands⟩

/-- C51, as far as it concerns memory, for all histories: no call touches released memory; it returns
or panics. -/
theorem C51_memory_safe (h : RcReaches c RcCmd.Callable hist P) (hl : hist.length < c.usizeMax)
    {cmd : RcCmd α} (hc : cmd.Callable P.hands) :
    (∃ ev P', RcHappens c P cmd ev P') ∧ ∀ u, runRc c cmd P ≠ .ub u := by
  obtain ⟨I, hn⟩ := h.inv hl
  have e := I.step (c := c) (by omega) hc
  cases hr : runRc c cmd P with
  | ok o P' => exact ⟨⟨_, _, .ret hr⟩, fun u hu => by cases hu⟩
  | panic P' => exact ⟨⟨_, _, .panic hr⟩, fun u hu => by cases hu⟩
  | abort => rw [hr] at e; exact e.elim
  | ub u => rw [hr] at e; exact e.elim

/-- C51 is false: `try_unwrap` moves the value 7 out to the client; the `Weak` handle 1 gives a new
`Rc` handle 2, and reading it shows the moved-out value once more. -/
theorem C51_refuted : ∃ P, RcReaches cfg64 RcCmd.Callable
    [(.new 7, .ret .unit), (.downgrade 0, .ret .unit), (.tryUnwrap 0, .ret (.opt (some 7))),
     (.upgrade 1, .ret (.bool true)), (.read 2, .ret (.val 7))] P :=
  ⟨⟨[none, some (.weak (some 0)), some (.rc 0)], ⟨[some ⟨2, 1, 7⟩], 1, 0, 0, []⟩⟩,
    rcTrace_callable (cs := [.new 7, .downgrade 0, .tryUnwrap 0, .upgrade 1, .read 2])
      (evs := [.ret .unit, .ret .unit, .ret (.opt (some 7)), .ret (.bool true), .ret (.val 7)])
      (by decide +kernel)⟩

/-- A permitted program that uses most functions. -/
def rcProg : List (RcCmd Nat) :=
  [.new 7, .clone 0, .downgrade 1, .makeMut 0 (· + 1), .read 0, .read 1, .setMut 1 5, .drop 2,
   .setMut 1 5, .read 1, .tryUnwrap 1, .strongCount 0, .downgrade 0, .drop 0, .upgrade 3, .read 4,
   .strongCount 4, .setMut 4 9, .drop 3, .tryUnwrap 4, .weakCount 4]

def rcProgSees : List (RcEvent Nat) :=
  [.ret .unit, .ret .unit, .ret .unit, .ret (.val 7), .ret (.val 8), .ret (.val 7), .ret (.opt none),
   .ret .unit, .ret (.opt (some 7)), .ret (.val 5), .ret (.opt (some 5)), .ret (.nat 1), .ret .unit,
   .ret .unit, .ret (.bool true), .ret (.val 8), .ret (.nat 2), .ret (.opt none), .ret .unit,
   .ret (.opt none), .ret (.nat 0)]

theorem rcProg_reaches : RcReaches cfg64 RcCmd.Permitted (rcProg.zip rcProgSees)
    ⟨[none, none, none, none, some (.rc 1)],
      ⟨[some ⟨1, 0, 5⟩, some ⟨2, 0, 8⟩], 2, 0, 1, []⟩⟩ :=
  rcTrace_permitted (by decide +kernel)

example : ∃ P, RcReaches cfg64 RcCmd.Permitted (rcProg.zip rcProgSees) P ∧ FaithfulClone cfg64 ∧
    (rcProg.zip rcProgSees).length + 1 < cfg64.usizeMax ∧
    P.hands[4]? = some (some (.rc 1)) ∧ runRc cfg64 (.read 4) P = .ok (.val 8) P :=
  ⟨_, rcProg_reaches, fun _ _ _ e => by cases e; rfl, by decide +kernel, rfl, rfl⟩

/-! ## C52 -/

/-- C52 for tame histories: `get_mut` gives access only if there is no other `Rc` and no `Weak` handle
of the value; and if there is none, and the value always had an `Rc` handle, it does. -/
theorem C52_exclusive_partial (h : RcReaches c RcCmd.Tame hist P) (hcl : FaithfulClone c)
    (hl : hist.length + 1 < c.usizeMax) {i p : Nat} (hk : P.hands[i]? = some (some (.rc p))) (x : α) :
    (∀ a P', runRc c (.setMut i x) P = .ok (.opt (some a)) P' →
      P.hands.rcs p = 1 ∧ P.hands.weaks p = 0 ∧ runRc c (.read i) P = .ok (.val a) P) ∧
    ∃ S o, RcRuns hist S ∧ S.objs[p]? = some o ∧
      (P.hands.rcs p = 1 → P.hands.weaks p = 0 → o.orphan = false →
        ∃ P', runRc c (.setMut i x) P = .ok (.opt (some o.val)) P' ∧
          runRc c (.read i) P' = .ok (.val x) P') := by
  obtain ⟨S, hr, I, hn⟩ := h.sim hcl hl
  obtain ⟨o, ho, hread⟩ := I.read_eq (c := c) hk
  have hk' : S.hands[i]? = some (some (.rc p)) := I.hands ▸ hk
  refine ⟨fun a P' e => ?_, S, o, hr, ho, fun h1 h2 h3 => ?_⟩
  · rcases does_ok (I.does_setMut (c := c) hk x) with ⟨out, P1, e1, S', hs, _⟩ | ⟨P1, e1, _⟩
    · rw [e] at e1
      injection e1 with e2 e3
      subst e2 e3
      generalize hev : (⟨some (.opt (some a)), P'.w.refusals != P.w.refusals⟩ : RcEvent α) = ev at hs
      cases hs with
      | setMut _ _ q o' _ hq ho' hA =>
        rw [hk'] at hq
        cases hq
        rw [ho] at ho'
        cases ho'
        injection hev with e4
        injection e4 with e4
        injection e4 with e4
        injection e4 with e4
        subst e4
        exact ⟨I.hands ▸ hA.1, I.hands ▸ hA.2.1, hread⟩
      | setMutShared => injection hev with e4; cases e4
    · rw [e] at e1; cases e1
  · have hA : S.Alone p o := ⟨I.hands ▸ h1, I.hands ▸ h2, h3⟩
    rcases does_ok (I.does_setMut (c := c) hk x) with ⟨out, P1, e1, S', hs, I', _⟩ | ⟨P1, e1, S', hs, _⟩
    · generalize hev : (⟨some out, P1.w.refusals != P.w.refusals⟩ : RcEvent α) = ev at hs
      cases hs with
      | setMut _ _ q o' _ hq ho' hA' =>
        rw [hk'] at hq
        cases hq
        rw [ho] at ho'
        cases ho'
        injection hev with e4
        injection e4 with e4
        subst e4
        refine ⟨P1, e1, ?_⟩
        have hk1 : P1.hands[i]? = some (some (.rc p)) := by rw [I'.hands]; exact hk'
        obtain ⟨o1, ho1, hread1⟩ := I'.read_eq (c := c) hk1
        have hpl : p < S.objs.length := (List.getElem?_eq_some_iff.mp ho).1
        simp only [List.getElem?_set_self hpl] at ho1
        cases ho1
        exact hread1
      | setMutShared _ _ q o' _ hq ho' hA' =>
        rw [hk'] at hq
        cases hq
        rw [ho] at ho'
        cases ho'
        exact absurd hA hA'
    · generalize hev : (⟨none, P1.w.refusals != P.w.refusals⟩ : RcEvent α) = ev at hs
      cases hs with
      | setMut => injection hev with e4; cases e4
      | setMutShared => injection hev with e4; cases e4

/-- C52 is false in release builds: `make_mut` makes the count of the old box wrap around, and after
`upgrade` (handle 2) and `clone` (handle 3) it is 1: `get_mut` on handle 2 gives access to what
handle 3 reads. -/
theorem C52_refuted_release : ∃ P, RcReaches cfgRcRelease RcCmd.Callable
    [(.new 7, .ret .unit), (.downgrade 0, .ret .unit), (.makeMut 0 id, .ret (.val 7)),
     (.upgrade 1, .ret (.bool true)), (.clone 2, .ret .unit), (.drop 1, .ret .unit),
     (.ptrEq 2 3, .ret (.bool true)), (.setMut 2 9, .ret (.opt (some 7))),
     (.read 3, .ret (.val 9))] P :=
  ⟨⟨[some (.rc 1), none, some (.rc 0), some (.rc 0)],
      ⟨[some ⟨1, 0, 9⟩, some ⟨1, 0, 7⟩], 2, 0, 0, []⟩⟩,
    rcTrace_callable (cs := [.new 7, .downgrade 0, .makeMut 0 id, .upgrade 1, .clone 2, .drop 1,
        .ptrEq 2 3, .setMut 2 9, .read 3])
      (evs := [.ret .unit, .ret .unit, .ret (.val 7), .ret (.bool true), .ret .unit, .ret .unit,
        .ret (.bool true), .ret (.opt (some 7)), .ret (.val 9)])
      (by decide +kernel)⟩

/-- C52 is false in debug builds, too: if `make_mut` is refused memory it leaves the count at 0. -/
theorem C52_refuted_refused : ∃ P, RcReaches cfgRcDeny RcCmd.Callable
    [(.new 7, .ret .unit), (.downgrade 0, .ret .unit), (.makeMut 0 id, .refuse),
     (.clone 0, .ret .unit), (.drop 1, .ret .unit), (.ptrEq 0 2, .ret (.bool true)),
     (.setMut 0 9, .ret (.opt (some 7))), (.read 2, .ret (.val 9))] P :=
  ⟨⟨[some (.rc 0), none, some (.rc 0)], ⟨[some ⟨1, 0, 9⟩], 2, 1, 0, []⟩⟩,
    rcTrace_callable (cs := [.new 7, .downgrade 0, .makeMut 0 id, .clone 0, .drop 1, .ptrEq 0 2,
        .setMut 0 9, .read 2])
      (evs := [.ret .unit, .ret .unit, .refuse, .ret .unit, .ret .unit, .ret (.bool true),
        .ret (.opt (some 7)), .ret (.val 9)])
      (by decide +kernel)⟩

/-- The value of the only handle, and a shared one. -/
example : (∃ P, RcReaches cfg64 RcCmd.Permitted
      [(.new 7, .ret .unit), (.setMut 0 8, .ret (.opt (some 7))), (.read 0, .ret (.val 8))] P) ∧
    ∃ P, RcReaches cfg64 RcCmd.Permitted
      [(.new 7, .ret .unit), (.downgrade 0, .ret .unit), (.setMut 0 8, .ret (.opt none))] P :=
  ⟨⟨⟨[some (.rc 0)], ⟨[some ⟨1, 0, 8⟩], 1, 0, 0, []⟩⟩,
      rcTrace_permitted (cs := [.new 7, .setMut 0 8, .read 0])
        (evs := [.ret .unit, .ret (.opt (some 7)), .ret (.val 8)]) (by decide +kernel)⟩,
    ⟨⟨[some (.rc 0), some (.weak (some 0))], ⟨[some ⟨1, 1, 7⟩], 1, 0, 0, []⟩⟩,
      rcTrace_permitted (cs := [.new 7, .downgrade 0, .setMut 0 8])
        (evs := [.ret .unit, .ret .unit, .ret (.opt none)]) (by decide +kernel)⟩⟩

/-! ## C53 -/

/-- C53, the half that holds, for all histories: `Rc` drops no value and releases no memory before the
last handle is gone — because it never does. -/
theorem C53_never_early_partial (h : RcReaches c RcCmd.Callable hist P)
    (hl : hist.length < c.usizeMax) :
    P.w.dropped = [] ∧ ∀ p, p < P.w.boxes.length → ∃ b, P.w.boxes[p]? = some (some b) := by
  obtain ⟨I, hn⟩ := h.inv hl
  refine ⟨I.dropped, fun p hp => ?_⟩
  obtain ⟨b, hb, _⟩ := I.box p hp
  exact ⟨b, hb⟩

/-- C53 is false: after the only handle is dropped, the value was not dropped and the box is still
allocated. -/
theorem C53_refuted : ∃ P, RcReaches cfg64 RcCmd.Callable
    [(.new 7, .ret .unit), (.drop 0, .ret .unit)] P ∧ P.hands = [none] ∧
    P.w.dropped = [] ∧ P.w.boxes = [some ⟨1, 0, 7⟩] :=
  ⟨⟨[none], ⟨[some ⟨1, 0, 7⟩], 1, 0, 0, []⟩⟩,
    rcTrace_callable (cs := [.new 7, .drop 0]) (evs := [.ret .unit, .ret .unit]) (by decide +kernel),
    rfl, rfl, rfl⟩

example : RcReaches cfg64 RcCmd.Callable (rcProg.zip rcProgSees)
      ⟨[none, none, none, none, some (.rc 1)], ⟨[some ⟨1, 0, 5⟩, some ⟨2, 0, 8⟩], 2, 0, 1, []⟩⟩ ∧
    (rcProg.zip rcProgSees).length < cfg64.usizeMax :=
  ⟨rcProg_reaches.weaken fun _ _ h => h.1.1, by decide +kernel⟩

/-! ## C54 -/

theorem RcSim.upgrade_some {S : RcState α} (I : RcSim P S) (hm : P.hands.length + 1 < c.usizeMax)
    {i p : Nat} (hk : P.hands[i]? = some (some (.weak (some p)))) :
    ∃ w, runRc c (.upgrade i) P = .ok (.bool true) ⟨P.hands ++ [some (.rc p)], w⟩ := by
  obtain ⟨o, b, ho, hb, hp, hv, hw, hs, h1⟩ := I.atWeak hk
  have := Hands.rcs_le P.hands p
  have e := Rc.upgrade_eq (c := c) hb (by omega) (by split at hs <;> omega)
  refine ⟨P.w.put p { b with strong := b.strong + 1 }, ?_⟩
  simp only [runRc, hk, RcPool.make, RcPool.on, e, Option.map, Option.isSome]

/-- C54, the half that holds, for tame histories: while there is an `Rc` handle of the value, `upgrade`
gives another. A `Weak` of nothing gives none. -/
theorem C54_upgrade_partial (h : RcReaches c RcCmd.Tame hist P) (hcl : FaithfulClone c)
    (hl : hist.length + 1 < c.usizeMax) (i : Nat) :
    (∀ p, P.hands[i]? = some (some (.weak (some p))) → 0 < P.hands.rcs p →
      ∃ w, runRc c (.upgrade i) P = .ok (.bool true) ⟨P.hands ++ [some (.rc p)], w⟩) ∧
    (P.hands[i]? = some (some (.weak none)) → runRc c (.upgrade i) P = .ok (.bool false) P) := by
  obtain ⟨S, hr, I, hn⟩ := h.sim hcl hl
  refine ⟨fun p hk _ => ?_, fun hk => by simp only [runRc, hk]⟩
  exact I.upgrade_some (by omega) hk

/-- C54 is false for all tame histories: if there is no `Rc` handle left, `upgrade` gives one all the
same. -/
theorem C54_refuted_always (h : RcReaches c RcCmd.Tame hist P) (hcl : FaithfulClone c)
    (hl : hist.length + 1 < c.usizeMax) (i p : Nat)
    (hk : P.hands[i]? = some (some (.weak (some p)))) (_ : P.hands.rcs p = 0) :
    ∃ w, runRc c (.upgrade i) P = .ok (.bool true) ⟨P.hands ++ [some (.rc p)], w⟩ := by
  obtain ⟨S, hr, I, hn⟩ := h.sim hcl hl
  exact I.upgrade_some (by omega) hk

/-- C54 is false: the only `Rc` handle is dropped, and `upgrade` succeeds. -/
theorem C54_refuted : ∃ P, RcReaches cfg64 RcCmd.Permitted
    [(.new 7, .ret .unit), (.downgrade 0, .ret .unit), (.drop 0, .ret .unit)] P ∧
    P.hands[1]? = some (some (.weak (some 0))) ∧ P.hands.rcs 0 = 0 ∧
    ∃ P', runRc cfg64 (.upgrade 1) P = .ok (.bool true) P' :=
  ⟨⟨[none, some (.weak (some 0))], ⟨[some ⟨1, 1, 7⟩], 1, 0, 0, []⟩⟩,
    rcTrace_permitted (cs := [.new 7, .downgrade 0, .drop 0])
      (evs := [.ret .unit, .ret .unit, .ret .unit]) (by decide +kernel), rfl, rfl,
    ⟨⟨[none, some (.weak (some 0)), some (.rc 0)], ⟨[some ⟨2, 1, 7⟩], 1, 0, 0, []⟩⟩, rfl⟩⟩

example : ∃ P, RcReaches cfg64 RcCmd.Tame [(.new 7, .ret .unit), (.downgrade 0, .ret .unit)] P ∧
    P.hands[1]? = some (some (.weak (some 0))) ∧ 0 < P.hands.rcs 0 :=
  ⟨⟨[some (.rc 0), some (.weak (some 0))], ⟨[some ⟨1, 1, 7⟩], 1, 0, 0, []⟩⟩,
    (rcTrace_permitted (cs := [.new 7, .downgrade 0]) (evs := [.ret .unit, .ret .unit])
      (by decide +kernel)).weaken fun _ _ h => h.1, rfl, by decide +kernel⟩

/-! ## C55 -/

/-- C55 for `weak_count`, for all histories, called on an `Rc` or a `Weak`. -/
theorem C55_weak_exact (h : RcReaches c RcCmd.Callable hist P) (hl : hist.length < c.usizeMax)
    {i p : Nat} (hk : P.hands[i]? = some (some (.rc p)) ∨
      P.hands[i]? = some (some (.weak (some p)))) :
    runRc c (.weakCount i) P = .ok (.nat (P.hands.weaks p)) P := by
  obtain ⟨I, hn⟩ := h.inv hl
  rcases hk with hk | hk
  · obtain ⟨b, hb, hw⟩ := I.rc_box hk
    simp only [runRc, hk, RcPool.look, RcPool.on, Rc.weakCount_eq hb, hw]
  · obtain ⟨b, hb, hw⟩ := I.weak_box hk
    simp only [runRc, hk, RcPool.look, RcPool.on, Rc.weakCount_eq hb, hw]

/-- C55 for `strong_count`, for tame histories: exact if the value always had an `Rc` handle, and one
too many otherwise. -/
theorem C55_strong_partial (h : RcReaches c RcCmd.Tame hist P) (hcl : FaithfulClone c)
    (hl : hist.length + 1 < c.usizeMax) {i p : Nat} (hk : P.hands[i]? = some (some (.rc p)) ∨
      P.hands[i]? = some (some (.weak (some p)))) :
    ∃ S o, RcRuns hist S ∧ S.hands = P.hands ∧ S.objs[p]? = some o ∧
      (o.orphan = false → runRc c (.strongCount i) P = .ok (.nat (P.hands.rcs p)) P) ∧
      (o.orphan = true → runRc c (.strongCount i) P = .ok (.nat (P.hands.rcs p + 1)) P) := by
  obtain ⟨S, hr, I, hn⟩ := h.sim hcl hl
  rcases hk with hk | hk
  · obtain ⟨o, b, ho, hb, hp, hv, hw, hs, h1⟩ := I.atRc hk
    refine ⟨S, o, hr, I.hands.symm, ho, fun e => ?_, fun e => ?_⟩ <;>
      simp [runRc, hk, RcPool.look, RcPool.on, Rc.strongCount_eq hb, hs, e]
  · obtain ⟨o, b, ho, hb, hp, hv, hw, hs, h1⟩ := I.atWeak hk
    refine ⟨S, o, hr, I.hands.symm, ho, fun e => ?_, fun e => ?_⟩ <;>
      simp [runRc, hk, RcPool.look, RcPool.on, Rc.strongCount_eq hb, hs, e]

/-- C55 is false: without `Rc` handles `strong_count` is 1, and with one that was upgraded it is 2. -/
theorem C55_refuted : ∃ P, RcReaches cfg64 RcCmd.Permitted
    [(.new 7, .ret .unit), (.downgrade 0, .ret .unit), (.drop 0, .ret .unit),
     (.strongCount 1, .ret (.nat 1)), (.upgrade 1, .ret (.bool true)),
     (.strongCount 2, .ret (.nat 2))] P ∧ P.hands.rcs 0 = 1 :=
  ⟨⟨[none, some (.weak (some 0)), some (.rc 0)], ⟨[some ⟨2, 1, 7⟩], 1, 0, 0, []⟩⟩,
    rcTrace_permitted (cs := [.new 7, .downgrade 0, .drop 0, .strongCount 1, .upgrade 1,
        .strongCount 2])
      (evs := [.ret .unit, .ret .unit, .ret .unit, .ret (.nat 1), .ret (.bool true), .ret (.nat 2)])
      (by decide +kernel), rfl⟩

example : ∃ P, RcReaches cfg64 RcCmd.Permitted
    [(.new 7, .ret .unit), (.clone 0, .ret .unit), (.downgrade 1, .ret .unit),
     (.strongCount 2, .ret (.nat 2)), (.weakCount 0, .ret (.nat 1))] P ∧
    P.hands[2]? = some (some (.weak (some 0))) :=
  ⟨⟨[some (.rc 0), some (.rc 0), some (.weak (some 0))], ⟨[some ⟨2, 1, 7⟩], 1, 0, 0, []⟩⟩,
    rcTrace_permitted (cs := [.new 7, .clone 0, .downgrade 1, .strongCount 2, .weakCount 0])
      (evs := [.ret .unit, .ret .unit, .ret .unit, .ret (.nat 2), .ret (.nat 1)])
      (by decide +kernel), rfl⟩

/-! ## C56 -/

/-- C56 for permitted histories and values that always had an `Rc` handle, without `Weak` handles:
`try_unwrap` on the only `Rc` handle returns the value, and no handle of it is left; on others it
returns the handle, and nothing changes. -/
theorem C56_try_unwrap_partial (h : RcReaches c RcCmd.Permitted hist P) (hcl : FaithfulClone c)
    (hl : hist.length + 1 < c.usizeMax) {i p : Nat} (hk : P.hands[i]? = some (some (.rc p)))
    (h0 : P.hands.weaks p = 0) :
    ∃ S o, RcRuns hist S ∧ S.objs[p]? = some o ∧ o.moved = false ∧
      (P.hands.rcs p = 1 → o.orphan = false → ∃ P',
        runRc c (.tryUnwrap i) P = .ok (.opt (some o.val)) P' ∧ P'.hands = P.hands.set i none ∧
        P'.hands.rcs p = 0 ∧ P'.hands.weaks p = 0) ∧
      (P.hands.rcs p ≠ 1 → runRc c (.tryUnwrap i) P = .ok (.opt none) P) := by
  obtain ⟨S, hr, I, hn, hS⟩ := h.sound hcl hl
  obtain ⟨o, b, ho, hb, hp, hv, hw, hs, h1⟩ := I.atRc hk
  have hpos := Hands.rcs_pos hk
  refine ⟨S, o, hr, ho, hS.atRc (I.hands ▸ hk) ho, fun e1 e2 => ?_, fun e1 => ?_⟩
  · have e3 : b.strong = 1 := by simpa [e1, e2] using hs
    refine ⟨⟨P.hands.set i none, P.w⟩, ?_, rfl, ?_, ?_⟩
    · simp only [runRc, hk, RcPool.on, Rc.tryUnwrap_one hb e3, hv]
    · have := Hands.rcs_set P.hands hk none p
      simp at this
      show Hands.rcs (P.hands.set i none) p = 0
      omega
    · have := Hands.weaks_set P.hands hk none p
      simp at this
      show Hands.weaks (P.hands.set i none) p = 0
      omega
  · have e3 : b.strong ≠ 1 := by omega
    simp only [runRc, hk, RcPool.on, Rc.tryUnwrap_more hb e3]

/-- C56 is false if there is a `Weak` handle: the value returned to the client can be reached again.
And it fails for the only `Rc` handle if there was none for some time. -/
theorem C56_refuted :
    (∃ P, RcReaches cfg64 RcCmd.Callable
      [(.new 7, .ret .unit), (.downgrade 0, .ret .unit), (.tryUnwrap 0, .ret (.opt (some 7))),
       (.upgrade 1, .ret (.bool true)), (.upgrade 1, .ret (.bool true)),
       (.drop 1, .ret .unit), (.drop 3, .ret .unit), (.read 2, .ret (.val 7))] P) ∧
    ∃ P, RcReaches cfg64 RcCmd.Permitted
      [(.new 7, .ret .unit), (.downgrade 0, .ret .unit), (.drop 0, .ret .unit),
       (.upgrade 1, .ret (.bool true)), (.drop 1, .ret .unit), (.tryUnwrap 2, .ret (.opt none))] P ∧
      P.hands = [none, none, some (.rc 0)] :=
  ⟨⟨⟨[none, none, some (.rc 0), none], ⟨[some ⟨2, 0, 7⟩], 1, 0, 0, []⟩⟩,
      rcTrace_callable (cs := [.new 7, .downgrade 0, .tryUnwrap 0, .upgrade 1, .upgrade 1, .drop 1,
          .drop 3, .read 2])
        (evs := [.ret .unit, .ret .unit, .ret (.opt (some 7)), .ret (.bool true), .ret (.bool true),
          .ret .unit, .ret .unit, .ret (.val 7)])
        (by decide +kernel)⟩,
    ⟨⟨[none, none, some (.rc 0)], ⟨[some ⟨2, 0, 7⟩], 1, 0, 0, []⟩⟩,
      rcTrace_permitted (cs := [.new 7, .downgrade 0, .drop 0, .upgrade 1, .drop 1, .tryUnwrap 2])
        (evs := [.ret .unit, .ret .unit, .ret .unit, .ret (.bool true), .ret .unit, .ret (.opt none)])
        (by decide +kernel), rfl⟩⟩

example : ∃ P, RcReaches cfg64 RcCmd.Permitted
    [(.new 7, .ret .unit), (.clone 0, .ret .unit), (.tryUnwrap 0, .ret (.opt none)),
     (.drop 1, .ret .unit), (.tryUnwrap 0, .ret (.opt (some 7)))] P :=
  ⟨⟨[none, none], ⟨[some ⟨1, 0, 7⟩], 1, 0, 0, []⟩⟩,
    rcTrace_permitted (cs := [.new 7, .clone 0, .tryUnwrap 0, .drop 1, .tryUnwrap 0])
      (evs := [.ret .unit, .ret .unit, .ret (.opt none), .ret .unit, .ret (.opt (some 7))])
      (by decide +kernel)⟩

/-! ## C57 -/

theorem Hands.rcs_one {H : Hands} {i j p : Nat} (h1 : H.rcs p = 1)
    (hi : H[i]? = some (some (.rc p))) (hj : H[j]? = some (some (.rc p))) : i = j := by
  by_cases e : i = j
  · exact e
  · exfalso
    have h2 := Hands.rcs_set H hi none p
    have h3 : (H.set i none)[j]? = some (some (.rc p)) := by
      rw [List.getElem?_set_ne e]; exact hj
    have h4 := Hands.rcs_pos h3
    simp at h2
    omega

/-- C57 for tame histories, if `T::clone` returns an equal value and memory is granted: `make_mut`
returns access to the value the handle reads, the handle is then the only one of its value and reads
what was written, and all other `Rc` handles read what they read before. -/
theorem C57_make_mut_partial (h : RcReaches c RcCmd.Tame hist P)
    (hcl : ∀ k a, c.clone k a = some a) (hg : ∀ t n, c.grant t n = true)
    (hl : hist.length + 1 < c.usizeMax) {i p : Nat} (hk : P.hands[i]? = some (some (.rc p)))
    (h0 : P.hands.weaks p = 0 ∨ 2 ≤ P.hands.rcs p) (f : α → α) :
    ∃ a P' p', runRc c (.read i) P = .ok (.val a) P ∧
      runRc c (.makeMut i f) P = .ok (.val a) P' ∧
      P'.hands[i]? = some (some (.rc p')) ∧ P'.hands.rcs p' = 1 ∧ P'.hands.weaks p' = 0 ∧
      runRc c (.read i) P' = .ok (.val (f a)) P' ∧
      ∀ j q b, j ≠ i → P.hands[j]? = some (some (.rc q)) → runRc c (.read j) P = .ok (.val b) P →
        P'.hands[j]? = some (some (.rc q)) ∧ runRc c (.read j) P' = .ok (.val b) P' := by
  have hcl' : FaithfulClone c := fun k a b e => by rw [hcl] at e; cases e; rfl
  obtain ⟨S, hr, I, hn⟩ := h.sim hcl' hl
  obtain ⟨o, ho, hread⟩ := I.read_eq (c := c) hk
  have hk' : S.hands[i]? = some (some (.rc p)) := I.hands ▸ hk
  have hil : i < S.hands.length := (List.getElem?_eq_some_iff.mp hk').1
  have hpl : p < S.objs.length := (List.getElem?_eq_some_iff.mp ho).1
  have old : ∀ {j q b}, P.hands[j]? = some (some (.rc q)) →
      runRc c (.read j) P = .ok (.val b) P → ∃ x, S.objs[q]? = some x ∧ x.val = b := by
    intro j q b hj hb
    obtain ⟨x, hx, hr'⟩ := I.read_eq (c := c) hj
    rw [hr'] at hb
    injection hb with e
    injection e with e
    exact ⟨x, hx, e⟩
  rcases does_ok (I.does_makeMut (c := c) hcl' hk h0 f) with
    ⟨out, P1, e1, S', hs, I', _⟩ | ⟨P1, e1, S', hs, I', _⟩
  · generalize hev : (⟨some out, P1.w.refusals != P.w.refusals⟩ : RcEvent α) = ev at hs
    cases hs with
    | makeMut _ _ q o' _ hq ho' hA =>
      rw [hk'] at hq
      cases hq
      rw [ho] at ho'
      cases ho'
      injection hev with e4
      injection e4 with e4
      subst e4
      have hH : P1.hands = P.hands := by rw [I'.hands, I.hands]
      have hk1 : P1.hands[i]? = some (some (.rc p)) := hH ▸ hk
      obtain ⟨o1, ho1, hread1⟩ := I'.read_eq (c := c) hk1
      simp only [List.getElem?_set_self hpl] at ho1
      cases ho1
      refine ⟨o.val, P1, p, hread, e1, hk1, ?_, ?_, hread1, fun j q b hji hj hb => ?_⟩
      · rw [hH, I.hands]; exact hA.1
      · rw [hH, I.hands]; exact hA.2.1
      · have hj1 : P1.hands[j]? = some (some (.rc q)) := hH ▸ hj
        refine ⟨hj1, ?_⟩
        have hqp : q ≠ p := by
          intro e
          subst e
          exact hji (Hands.rcs_one (I.hands ▸ hA.1) hj hk)
        obtain ⟨x, hx, rfl⟩ := old hj hb
        obtain ⟨x1, hx1, hread2⟩ := I'.read_eq (c := c) hj1
        simp only [List.getElem?_set_ne (Ne.symm hqp)] at hx1
        rw [hx] at hx1
        cases hx1
        exact hread2
    | makeMutShared _ _ q o' _ hq ho' hA =>
      rw [hk'] at hq
      cases hq
      rw [ho] at ho'
      cases ho'
      injection hev with e4
      injection e4 with e4
      subst e4
      have hk1 : P1.hands[i]? = some (some (.rc S.objs.length)) := by
        rw [I'.hands]
        exact List.getElem?_set_self hil
      obtain ⟨o1, ho1, hread1⟩ := I'.read_eq (c := c) hk1
      simp at ho1
      subst ho1
      have hz := I.beyond S.objs.length (by rw [I.len]; exact Nat.le_refl _)
      have c1 := Hands.rcs_set S.hands hk' (some (.rc S.objs.length)) S.objs.length
      have c2 := Hands.weaks_set S.hands hk' (some (.rc S.objs.length)) S.objs.length
      have hne : ¬ p = S.objs.length := by omega
      simp [hne] at c1 c2
      rw [I.hands] at hz
      refine ⟨o.val, P1, S.objs.length, hread, e1, hk1, ?_, ?_, hread1, fun j q b hji hj hb => ?_⟩
      · rw [I'.hands]
        show Hands.rcs (S.hands.set i _) _ = 1
        omega
      · rw [I'.hands]
        show Hands.weaks (S.hands.set i _) _ = 0
        omega
      · have hj1 : P1.hands[j]? = some (some (.rc q)) := by
          rw [I'.hands]
          show (S.hands.set i _)[j]? = _
          rw [List.getElem?_set_ne (Ne.symm hji), ← I.hands]
          exact hj
        refine ⟨hj1, ?_⟩
        obtain ⟨x, hx, rfl⟩ := old hj hb
        obtain ⟨x1, hx1, hread2⟩ := I'.read_eq (c := c) hj1
        simp only [List.getElem?_append_left (List.getElem?_eq_some_iff.mp hx).1] at hx1
        rw [hx] at hx1
        cases hx1
        exact hread2
    | makeMutPanic => injection hev with e4; cases e4
    | makeMutRefused => injection hev with e4; cases e4
  · exfalso
    obtain ⟨o, b, ho, hb, hp, hv, hw, hs', h1⟩ := I.atRc hk
    simp only [runRc, hk] at e1
    by_cases hA : b.strong = 1 ∧ b.weak = 0
    · rw [RcSim.makeMut_ok (RcSim.makeMut_alone hb hA.1 hA.2) hb] at e1
      cases e1
    · have h2 : 2 ≤ b.strong := by
        by_cases e : 2 ≤ b.strong
        · exact e
        · exfalso
          apply hA
          refine ⟨by omega, ?_⟩
          rcases h0 with h0 | h0
          · omega
          · split at hs' <;> omega
      have hm := RcSim.makeMut_shared hb h2 (hcl _ _) (hg _ _)
      simp only [RcPool.makeMut, hm] at e1
      rw [RcPool.on, Rc.write_eq (b := ⟨1, 0, b.val⟩)] at e1
      · cases e1
      · simp only [RcWorld.put, RcWorld.add]
        rw [List.getElem?_set_ne (by omega)]
        simp

/-- C57 for tame histories: if `make_mut` panics — `T::clone` panicked, or memory was refused — all
handles read what they read before. -/
theorem C57_panic_partial (h : RcReaches c RcCmd.Tame hist P) (hcl : FaithfulClone c)
    (hl : hist.length + 1 < c.usizeMax) {i p : Nat} (hk : P.hands[i]? = some (some (.rc p)))
    (h0 : P.hands.weaks p = 0 ∨ 2 ≤ P.hands.rcs p) (f : α → α) {P' : RcPool α}
    (hp : runRc c (.makeMut i f) P = .panic P') :
    P'.hands = P.hands ∧ ∀ j q b, P.hands[j]? = some (some (.rc q)) →
      runRc c (.read j) P = .ok (.val b) P → runRc c (.read j) P' = .ok (.val b) P' := by
  obtain ⟨S, hr, I, hn⟩ := h.sim hcl hl
  rcases does_ok (I.does_makeMut (c := c) hcl hk h0 f) with ⟨out, P1, e1, _⟩ | ⟨P1, e1, S', hs, I', _⟩
  · rw [hp] at e1; cases e1
  · rw [hp] at e1
    injection e1 with e1
    subst e1
    have hS : S' = S := by
      generalize hev : (⟨none, P'.w.refusals != P.w.refusals⟩ : RcEvent α) = ev at hs
      cases hs with
      | makeMut => injection hev with e4; cases e4
      | makeMutShared => injection hev with e4; cases e4
      | makeMutPanic => rfl
      | makeMutRefused => rfl
    subst hS
    have hH : P'.hands = P.hands := by rw [I'.hands, I.hands]
    refine ⟨hH, fun j q b hj hb => ?_⟩
    obtain ⟨x, hx, e⟩ := I.read_eq (c := c) hj
    obtain ⟨x', hx', e'⟩ := I'.read_eq (c := c) (hH ▸ hj)
    rw [hx] at hx'
    cases hx'
    rw [e] at hb
    injection hb with e2
    rw [e', e2]

/-- C57 is false in debug builds: with a `Weak` handle `make_mut` panics. -/
theorem C57_refuted_debug : ∃ P, RcReaches cfg64 RcCmd.Callable
    [(.new 7, .ret .unit), (.downgrade 0, .ret .unit), (.makeMut 0 (· + 1), .panic)] P :=
  ⟨⟨[some (.rc 1), some (.weak (some 0))], ⟨[some ⟨0, 1, 7⟩, some ⟨1, 0, 7⟩], 2, 0, 0, []⟩⟩,
    rcTrace_callable (cs := [.new 7, .downgrade 0, .makeMut 0 (· + 1)])
      (evs := [.ret .unit, .ret .unit, .panic]) (by decide +kernel)⟩

/-- C57 is false in release builds: the `Weak` handle is not detached; the handle it gives reads the
value that was moved into the new box. -/
theorem C57_refuted_release : ∃ P, RcReaches cfgRcRelease RcCmd.Callable
    [(.new 7, .ret .unit), (.downgrade 0, .ret .unit), (.makeMut 0 (· + 1), .ret (.val 7)),
     (.read 0, .ret (.val 8)), (.upgrade 1, .ret (.bool true)), (.read 2, .ret (.val 7))] P :=
  ⟨⟨[some (.rc 1), some (.weak (some 0)), some (.rc 0)],
      ⟨[some ⟨0, 1, 7⟩, some ⟨1, 0, 8⟩], 2, 0, 0, []⟩⟩,
    rcTrace_callable (cs := [.new 7, .downgrade 0, .makeMut 0 (· + 1), .read 0, .upgrade 1, .read 2])
      (evs := [.ret .unit, .ret .unit, .ret (.val 7), .ret (.val 8), .ret (.bool true),
        .ret (.val 7)])
      (by decide +kernel)⟩

/-- The hypotheses can be met: the value is shared by two `Rc` handles and a `Weak`. -/
example : ∃ P, RcReaches cfg64 RcCmd.Tame
    [(.new 7, .ret .unit), (.clone 0, .ret .unit), (.downgrade 1, .ret .unit)] P ∧
    P.hands[0]? = some (some (.rc 0)) ∧ 2 ≤ P.hands.rcs 0 ∧ (∀ k a, cfg64.clone k a = some a) ∧
    (∀ t n, cfg64.grant t n = true) :=
  ⟨⟨[some (.rc 0), some (.rc 0), some (.weak (some 0))], ⟨[some ⟨2, 1, 7⟩], 1, 0, 0, []⟩⟩,
    (rcTrace_permitted (cs := [.new 7, .clone 0, .downgrade 1])
      (evs := [.ret .unit, .ret .unit, .ret .unit]) (by decide +kernel)).weaken fun _ _ h => h.1,
    rfl, by decide +kernel, fun _ _ => rfl, fun _ _ => rfl⟩
/-- `make_mut` on a shared value panics if memory is refused, and nothing changes. -/
example : ∃ P, RcReaches cfgRcDeny RcCmd.Permitted
    [(.new 7, .ret .unit), (.clone 0, .ret .unit), (.makeMut 0 (· + 1), .refuse),
     (.read 0, .ret (.val 7)), (.strongCount 1, .ret (.nat 2))] P :=
  ⟨⟨[some (.rc 0), some (.rc 0)], ⟨[some ⟨2, 0, 7⟩], 2, 1, 1, []⟩⟩,
    rcTrace_permitted (cs := [.new 7, .clone 0, .makeMut 0 (· + 1), .read 0, .strongCount 1])
      (evs := [.ret .unit, .ret .unit, .refuse, .ret (.val 7), .ret (.nat 2)]) (by decide +kernel)⟩

end Lokky
