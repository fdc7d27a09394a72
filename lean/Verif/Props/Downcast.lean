import Verif.Model.Downcast
import Verif.Props.Arc
import Verif.Props.Boxed
import Verif.Props.Rc

/-!
# C151: `downcast`

A handle of a value of unknown type is turned into one of the type of the value, and nothing else changes. This holds for `Box` and `Arc`.
It is false for `Rc`, which counts the handle as dropped (`C151_rc_refuted`, `C151_rc_refuted_get_mut`), unless it is the only one, and
for `Urc`, whose fence is given back with the wrong layout (`C151_urc_refuted`).
-/

namespace Lokky
open Spec
variable {α : Type} {c : Cfg α}

/-! ## Box -/

/-- C151 for `Box`: the box is given back, as a box of type `t` if that is the type of its value and as it was if not. -/
theorem C151_box (cs : Nat → Cfg α) (t : Nat) (b : AnyBox) {w : World α} {x : α} (hs : (cs b.ty).size ≠ 0)
    (h : w.heap b.box.ptr = some ⟨b.box.alloc, (cs b.ty).size, [some x]⟩) :
    (t = b.ty ∧ ∃ b' : BoxH, b.downcast t = .ok b' ∧ b'.run (Boxed.read (cs t)) w = .ok x w ∧ b'.alloc = b.box.alloc ∧
      b'.marker = b.box.marker ∧ b'.run (Boxed.drop (cs t)) w = b.drop cs w) ∨
    (t ≠ b.ty ∧ b.downcast t = .error b) := by
  by_cases e : b.ty = t
  · subst e
    refine .inl ⟨rfl, b.cast, by simp [AnyBox.downcast], ?_, rfl, rfl, rfl⟩
    rw [BoxH.run, show b.cast = b.box from rfl, Boxed.read_eq hs h]
  · exact .inr ⟨fun h => e h.symm, by simp [AnyBox.downcast, e]⟩

/-- C151 for `Box`: dropping what `downcast` gave, of either kind, drops the value once and gives its memory back, with the layout it was
requested with and to the allocator it came from; nothing else is touched. -/
theorem C151_box_drop (cs : Nat → Cfg α) (t : Nat) (b : AnyBox) {w : World α} {x : α} (hs : (cs b.ty).size ≠ 0)
    (hd : (cs b.ty).dropPanics x = false) (h : w.heap b.box.ptr = some ⟨b.box.alloc, (cs b.ty).size, [some x]⟩) :
    ∃ w', (match b.downcast t with
        | .ok b' => b'.run (Boxed.drop (cs t)) w
        | .error b' => b'.drop cs w) = .ok () w' ∧
      w'.log.drops = w.log.drops ++ [x] ∧ w'.heap b.box.ptr = none ∧ ∀ p, p ≠ b.box.ptr → w'.heap p = w.heap p := by
  have e : b.drop cs w = .ok () ((w.put (cs b.ty) b.box x [x]).gone b.box []) := by
    simp [AnyBox.drop, BoxH.run, Boxed.drop_eq hs h, hd]
  refine ⟨(w.put (cs b.ty) b.box x [x]).gone b.box [], ?_, ?_, ?_, ?_⟩
  · rcases C151_box cs t b hs h with ⟨_, b', h1, _, _, _, h2⟩ | ⟨_, h1⟩
    · rw [h1]
      exact h2.trans e
    · rw [h1]
      exact e
  · simp [World.gone, World.put]
  · simp [World.gone]
  · intro p hp
    simp [World.gone, World.put, hp]

/-- C151 for `Box`: also where the destructor of the value panics, what `downcast` gave behaves as the box did: the panic is passed on, the
value counts as dropped, and its memory is not given back. -/
theorem C151_box_drop_panics (cs : Nat → Cfg α) (t : Nat) (b : AnyBox) {w : World α} {x : α} (hs : (cs b.ty).size ≠ 0)
    (hd : (cs b.ty).dropPanics x = true) (h : w.heap b.box.ptr = some ⟨b.box.alloc, (cs b.ty).size, [some x]⟩) :
    ∃ w', (match b.downcast t with
        | .ok b' => b'.run (Boxed.drop (cs t)) w
        | .error b' => b'.drop cs w) = .panic w' ∧
      w'.log.drops = w.log.drops ++ [x] ∧ (w'.heap b.box.ptr).isSome = true ∧ ∀ p, p ≠ b.box.ptr → w'.heap p = w.heap p := by
  have e : b.drop cs w = .panic (w.put (cs b.ty) b.box x [x]) := by
    simp [AnyBox.drop, BoxH.run, Boxed.drop_eq hs h, hd]
  refine ⟨w.put (cs b.ty) b.box x [x], ?_, ?_, ?_, ?_⟩
  · rcases C151_box cs t b hs h with ⟨_, b', h1, _, _, _, h2⟩ | ⟨_, h1⟩
    · rw [h1]
      exact h2.trans e
    · rw [h1]
      exact e
  · simp [World.put]
  · simp [World.put]
  · intro p hp
    simp [World.put, hp]

/-- Why the type must be looked at: a box that is cast to a type of another size is given back with the wrong layout. -/
theorem C151_box_needs_check (cs : Nat → Cfg α) (t : Nat) (b : AnyBox) {w : World α} {x : α}
    (hne : (cs t).size ≠ (cs b.ty).size) (hs : (cs t).size ≠ 0) (hd : (cs t).dropPanics x = false)
    (h : w.heap b.box.ptr = some ⟨b.box.alloc, (cs b.ty).size, [some x]⟩) :
    b.cast.run (Boxed.drop (cs t)) w = .ub .badLayout := by
  have hsl : w.slots (some b.box.ptr) = [some x] := by simp only [World.slots]; rw [h]
  simp only [BoxH.run, Boxed.drop, M.bind_apply, Boxed.onSlot, Vec.onBuf, Boxed.view, AnyBox.cast, hsl, Buf.dropAt, hs, if_false,
    List.getElem?_cons_zero, Buf.onLog, dropVal, hd]
  simp [Boxed.dealloc, M.bind_apply, liftW, rawDealloc, World.setSlots, h, Ne.symm hne]

/-! ## Rc -/

section Rc
variable {hist : RcHistory α} {P : RcPool α} {ty : α → Nat} {t : Nat}

/-- `downcast` of a handle whose value is counted twice or more. -/
theorem RcPool.downcast_more {i p : Nat} {b : RcBox α} (hk : P.hands[i]? = some (some (.rc p))) (hb : P.w.boxes[p]? = some (some b))
    (he : ty b.val = t) (h2 : 2 ≤ b.strong) :
    RcPool.downcast c ty t i P = .ok (.bool true) ⟨P.hands, P.w.put p { b with strong := b.strong - 1 }⟩ := by
  simp only [RcPool.downcast, hk, RcPool.on, Rc.downcast, M.bind_apply, Rc.asRef_eq hb, if_pos he, Rc.drop_more hb h2, M.pure_apply]
  rfl

/-- `downcast` of a handle whose value is counted once. -/
theorem RcPool.downcast_one {i p : Nat} {b : RcBox α} (hk : P.hands[i]? = some (some (.rc p))) (hb : P.w.boxes[p]? = some (some b))
    (he : ty b.val = t) (h1 : b.strong = 1) : RcPool.downcast c ty t i P = .ok (.bool true) P := by
  simp only [RcPool.downcast, hk, RcPool.on, Rc.downcast, M.bind_apply, Rc.asRef_eq hb, if_pos he, Rc.drop_last hb h1, M.pure_apply]
  rfl

/-- `downcast` to another type. -/
theorem RcPool.downcast_not {i p : Nat} {b : RcBox α} (hk : P.hands[i]? = some (some (.rc p))) (hb : P.w.boxes[p]? = some (some b))
    (he : ty b.val ≠ t) : RcPool.downcast c ty t i P = .ok (.bool false) P := by
  simp only [RcPool.downcast, hk, RcPool.on, Rc.downcast, M.bind_apply, Rc.asRef_eq hb, if_neg he, M.pure_apply]
  rfl

/-- C151 for `Rc`, the part that holds: where the type is wrong, or the handle is the only one of the value (and always was one), `downcast`
returns the handle and changes nothing. -/
theorem C151_rc_partial (h : RcReaches c RcCmd.Tame hist P) (hcl : FaithfulClone c) (hl : hist.length + 1 < c.usizeMax)
    {i p : Nat} (hk : P.hands[i]? = some (some (.rc p))) :
    ∃ S o, RcRuns hist S ∧ S.objs[p]? = some o ∧
      (ty o.val ≠ t → RcPool.downcast c ty t i P = .ok (.bool false) P) ∧
      (ty o.val = t → P.hands.rcs p = 1 → o.orphan = false → RcPool.downcast c ty t i P = .ok (.bool true) P) := by
  obtain ⟨S, hr, I, _⟩ := h.sim hcl hl
  obtain ⟨o, b, ho, hb, hp, hv, hw, hs, h1⟩ := I.atRc hk
  refine ⟨S, o, hr, ho, fun hne => ?_, fun he h2 h3 => ?_⟩
  · exact RcPool.downcast_not hk hb (hv ▸ hne)
  · exact RcPool.downcast_one hk hb (hv ▸ he) (by rw [hs, h2, h3]; rfl)

/-- C151 for `Rc`, the part that holds: `downcast` tells the type, and all handles still show the values they had. -/
theorem C151_rc_values (h : RcReaches c RcCmd.Tame hist P) (hcl : FaithfulClone c) (hl : hist.length + 1 < c.usizeMax)
    {i p : Nat} (hk : P.hands[i]? = some (some (.rc p))) :
    ∃ S o P', RcRuns hist S ∧ S.objs[p]? = some o ∧ RcPool.downcast c ty t i P = .ok (.bool (decide (ty o.val = t))) P' ∧
      P'.hands = P.hands ∧
      ∀ (j q : Nat), P.hands[j]? = some (some (.rc q)) →
        ∃ o', S.objs[q]? = some o' ∧ runRc c (.read j) P' = .ok (.val o'.val) P' := by
  obtain ⟨S, hr, I, _⟩ := h.sim hcl hl
  obtain ⟨o, b, ho, hb, hp, hv, hw, hs, h1⟩ := I.atRc hk
  by_cases he : ty o.val = t
  · by_cases h2 : b.strong = 1
    · refine ⟨S, o, P, hr, ho, (RcPool.downcast_one hk hb (hv ▸ he) h2).trans (by rw [decide_eq_true he]), rfl, fun j q hj => ?_⟩
      obtain ⟨o', a, e⟩ := I.read_eq (c := c) hj
      exact ⟨o', a, e⟩
    · refine ⟨S, o, ⟨P.hands, P.w.put p { b with strong := b.strong - 1 }⟩, hr, ho, (RcPool.downcast_more hk hb (hv ▸ he) (by omega)).trans (by rw [decide_eq_true he]), rfl, fun j q hj => ?_⟩
      obtain ⟨o', b', ho', hb', _, hv', _⟩ := I.atRc hj
      refine ⟨o', ho', ?_⟩
      by_cases hq : q = p
      · subst hq
        rw [hb] at hb'
        cases hb'
        simp only [runRc, hj, RcPool.look, RcPool.on, Rc.asRef_eq (Rc.put_get hb _), hv']
      · have : (P.w.put p { b with strong := b.strong - 1 }).boxes[q]? = some (some b') := by
          simp only [RcWorld.put, List.getElem?_set_ne (Ne.symm hq), hb']
        simp only [runRc, hj, RcPool.look, RcPool.on, Rc.asRef_eq this, hv']
  · refine ⟨S, o, P, hr, ho, (RcPool.downcast_not hk hb (hv ▸ he)).trans (by rw [decide_eq_false he]), rfl, fun j q hj => ?_⟩
    obtain ⟨o', a, e⟩ := I.read_eq (c := c) hj
    exact ⟨o', a, e⟩

/-- C151 is false for `Rc`, for every value with another handle: the handle that `downcast` returns is not counted any more. -/
theorem C151_rc_refuted (h : RcReaches c RcCmd.Tame hist P) (hcl : FaithfulClone c) (hl : hist.length + 1 < c.usizeMax)
    {i p n : Nat} {x : α} (hk : P.hands[i]? = some (some (.rc p))) (h2 : 2 ≤ P.hands.rcs p)
    (hx : runRc c (.read i) P = .ok (.val x) P) (hn : runRc c (.strongCount i) P = .ok (.nat n) P) (ht : ty x = t) :
    ∃ P', RcPool.downcast c ty t i P = .ok (.bool true) P' ∧ P'.hands = P.hands ∧
      runRc c (.strongCount i) P' = .ok (.nat (n - 1)) P' ∧ 2 ≤ n := by
  obtain ⟨S, hr, I, _⟩ := h.sim hcl hl
  obtain ⟨o, b, ho, hb, hp, hv, hw, hs, h1⟩ := I.atRc hk
  simp only [runRc, hk, RcPool.look, RcPool.on, Rc.asRef_eq hb, Res.ok.injEq, RcOut.val.injEq, and_true] at hx
  simp only [runRc, hk, RcPool.look, RcPool.on, Rc.strongCount_eq hb, Res.ok.injEq, RcOut.nat.injEq, and_true] at hn
  subst hx hn
  refine ⟨_, RcPool.downcast_more hk hb ht (by omega), rfl, ?_, by omega⟩
  simp only [runRc, hk, RcPool.look, RcPool.on, Rc.strongCount_eq (Rc.put_get hb _)]

/-- C151 is false for `Rc`: with two handles, `get_mut` afterwards gives access through one handle to what the other one reads. -/
theorem C151_rc_refuted_get_mut (h : RcReaches c RcCmd.Tame hist P) (hcl : FaithfulClone c) (hl : hist.length + 1 < c.usizeMax)
    {i j p : Nat} {x : α} (hi : P.hands[i]? = some (some (.rc p))) (hj : P.hands[j]? = some (some (.rc p))) (hij : i ≠ j)
    (hw : P.hands.weaks p = 0) (hx : runRc c (.read i) P = .ok (.val x) P) (hn : runRc c (.strongCount i) P = .ok (.nat 2) P)
    (ht : ty x = t) (y : α) :
    runRc c (.setMut i y) P = .ok (.opt none) P ∧
    ∃ P' P'', RcPool.downcast c ty t i P = .ok (.bool true) P' ∧ runRc c (.setMut i y) P' = .ok (.opt (some x)) P'' ∧
      runRc c (.read j) P'' = .ok (.val y) P'' := by
  obtain ⟨S, hr, I, _⟩ := h.sim hcl hl
  obtain ⟨o, b, ho, hb, hp, hv, hwk, hs, h1⟩ := I.atRc hi
  simp only [runRc, hi, RcPool.look, RcPool.on, Rc.asRef_eq hb, Res.ok.injEq, RcOut.val.injEq, and_true] at hx
  simp only [runRc, hi, RcPool.look, RcPool.on, Rc.strongCount_eq hb, Res.ok.injEq, RcOut.nat.injEq, and_true] at hn
  subst hx
  rw [hw] at hwk
  refine ⟨?_, _, ⟨P.hands, (P.w.put p { b with strong := b.strong - 1 }).put p { b with strong := b.strong - 1, val := y }⟩,
    RcPool.downcast_more hi hb ht (by omega), ?_, ?_⟩
  rotate_left
  · simp only [runRc, hi, RcPool.look, RcPool.on, M.bind_apply, Rc.getMut_eq (Rc.put_get hb _), hn, hwk]
    simp only [show (2 - 1 == 1 && 0 == 0) = true from rfl, if_true, M.bind_apply, Rc.write_eq (Rc.put_get hb _), M.pure_apply]
  · simp only [runRc, hj, RcPool.look, RcPool.on, Rc.asRef_eq (Rc.put_get (Rc.put_get hb _) _)]
  · simp only [runRc, hi, RcPool.look, RcPool.on, M.bind_apply, Rc.getMut_eq hb, hn]
    rfl

end Rc

/-! ## Arc -/

/-- C151 for `Arc`: where C58 holds, `downcast` tells the type, on whatever thread and whatever the others do, and changes nothing; so
whatever holds for the handle (C58 to C66) holds afterwards. -/
theorem C151_arc {mx n : Nat} {s : ArcSys α} (h : ArcReaches mx True n s) (hn : n ≤ mx) {i p : Nat} (hh : s.hands[i]? = some (some p))
    (ty : α → Nat) (t : Nat) :
    ∃ o : ArcObj α, s.objs[p]? = some o ∧ o.alive = true ∧ Arc.downcast ty t i s = .ok (decide (ty o.val = t)) s := by
  have I := h.inv hn
  have hL := h.whole.not_lost p
  obtain ⟨o, ho, -, ha, hf, hu, -⟩ := I.live (ArcInv.own_pos_of_hand hh) hL
  exact ⟨o, ho, ha, by simp [Arc.downcast, hh, M.bind_apply, ArcInv.data_ok ho hf ha]⟩

/-! ## Urc -/

/-- C151 is false for `Urc`: the fence of an `Urc<dyn Any>` is larger than that of an `Urc<T>`, because it points to a value of unknown type.
The last handle of a fence, after `downcast`, gives its memory back with a layout that it was not requested with. -/
theorem C151_urc_refuted {w : World α} {b : BoxH} {l : List (Option α)} {word : Nat} (hw : word ≠ 0)
    (h : w.heap b.ptr = some ⟨b.alloc, word * fenceWords true, l⟩) :
    Urc.freeAnyFence word false (Urc.downcastFence b) w = .ub .badLayout ∧ (Urc.downcastFence b).ptr = b.ptr ∧
    (Urc.downcastFence b).alloc = b.alloc ∧ (Urc.downcastFence b).marker = b.marker ∧
    ∃ w', Urc.freeAnyFence word true b w = .ok () w' ∧ w'.heap b.ptr = none := by
  refine ⟨?_, rfl, rfl, rfl, ?_⟩
  · simp only [Urc.freeAnyFence, Urc.downcastFence, rawDealloc, h]
    have : word * fenceWords true ≠ word * fenceWords false := by
      rw [Ne, Nat.mul_right_inj hw]
      decide
    simp [this]
  · exact ⟨{ w with heap := fun r => if r = b.ptr then none else w.heap r }, by simp [Urc.freeAnyFence, rawDealloc, h], by simp⟩

/-! ## Non-trivial cases -/

/-- Type 0 has 8 bytes and type 1 has 24. -/
def cfgTypes : Nat → Cfg Nat := fun t => if t = 1 then { cfg64 with size := 24 } else cfg64

/-- A box of the value 7, of type 1, made with marker 3 from allocator 5. -/
def worldAny : World Nat := { world0 with heap := fun p => if p = 4 then some ⟨5, 24, [some 7]⟩ else none }

example : (cfgTypes (AnyBox.mk ⟨4, 5, some 3⟩ 1).ty).size ≠ 0 ∧ (cfgTypes 1).dropPanics 7 = false ∧
    worldAny.heap 4 = some ⟨5, (cfgTypes 1).size, [some 7]⟩ ∧ (cfgTypes 0).size ≠ (cfgTypes 1).size := ⟨by decide, rfl, rfl, by decide⟩

/-- The right type: the box reads 7. -/
example : ∃ b, (AnyBox.mk ⟨4, 5, some 3⟩ 1).downcast 1 = .ok b ∧ b.run (Boxed.read (cfgTypes 1)) worldAny = .ok 7 worldAny :=
  ⟨⟨4, 5, some 3⟩, rfl, by
    rcases C151_box cfgTypes 1 (AnyBox.mk ⟨4, 5, some 3⟩ 1) (w := worldAny) (x := 7) (by decide +kernel) rfl with ⟨_, b', h1, h2, _⟩ | ⟨h, _⟩
    · cases h1; exact h2
    · exact absurd rfl h⟩

/-- A type whose destructor panics. -/
example : ({ cfgTypes 1 with dropPanics := fun _ => true } : Cfg Nat).size ≠ 0 ∧ worldAny.heap 4 = some ⟨5, (cfgTypes 1).size, [some 7]⟩ ∧
    ((AnyBox.mk ⟨4, 5, some 3⟩ 1).downcast 1).isOk = true := ⟨by decide, rfl, rfl⟩

/-- The wrong type: the box is given back. -/
example : (AnyBox.mk ⟨4, 5, some 3⟩ 1).downcast 0 = .error (AnyBox.mk ⟨4, 5, some 3⟩ 1) := rfl

/-- Three values, of the types 1, 0 and 1, with two, one and two handles, and a `Weak` of the last. -/
def rcAnyProg : List (RcCmd Nat) := [.new 7, .new 8, .new 9, .clone 0, .clone 2, .downgrade 2]

theorem rcAnyProg_reaches : RcReaches cfg64 RcCmd.Tame (rcAnyProg.zip (List.replicate 6 (.ret .unit)))
    ⟨[some (.rc 0), some (.rc 1), some (.rc 2), some (.rc 0), some (.rc 2), some (.weak (some 2))],
      ⟨[some ⟨2, 0, 7⟩, some ⟨1, 0, 8⟩, some ⟨2, 1, 9⟩], 3, 0, 0, []⟩⟩ := by
  exact rcTrace_reaches (c := cfg64) (okB := rcPermitted) (ok := RcCmd.Tame) (hist := []) (P := .start)
    (evs := List.replicate 6 (.ret .unit)) (P' := ⟨[some (.rc 0), some (.rc 1), some (.rc 2), some (.rc 0), some (.rc 2), some (.weak (some 2))],
      ⟨[some ⟨2, 0, 7⟩, some ⟨1, 0, 8⟩, some ⟨2, 1, 9⟩], 3, 0, 0, []⟩⟩)
    (fun _ _ h => (rcPermitted_sound h).1) rcAnyProg .start (by decide +kernel)

/-- The hypotheses of `C151_rc_refuted_get_mut`, with the type of a value being its last bit; and what happens: handle 3 reads 5. -/
example : ∃ hist P, RcReaches cfg64 RcCmd.Tame hist P ∧ FaithfulClone cfg64 ∧ hist.length + 1 < cfg64.usizeMax ∧
    P.hands[0]? = some (some (.rc 0)) ∧ P.hands[3]? = some (some (.rc 0)) ∧ P.hands.weaks 0 = 0 ∧ P.hands.rcs 0 = 2 ∧
    runRc cfg64 (.read 0) P = .ok (.val 7) P ∧ runRc cfg64 (.strongCount 0) P = .ok (.nat 2) P ∧
    (∃ P', RcPool.downcast cfg64 (· % 2) 1 0 P = .ok (.bool true) P' ∧ runRc cfg64 (.strongCount 3) P' = .ok (.nat 1) P') ∧
    RcPool.downcast cfg64 (· % 2) 1 1 P = .ok (.bool false) P ∧ RcPool.downcast cfg64 (· % 2) 0 1 P = .ok (.bool true) P :=
  ⟨_, _, rcAnyProg_reaches, fun _ _ _ e => by cases e; rfl, by decide +kernel, rfl, rfl, by decide +kernel, by decide +kernel, rfl, rfl,
    ⟨_, rfl, rfl⟩, rfl, rfl⟩

/-- An `Arc` of 7 that one thread reads while another drops a clone of it. -/
example : ∃ (n : Nat) (s : ArcSys Nat), ArcReaches arcMax True n s ∧ n ≤ arcMax ∧ s.hands[0]? = some (some 0) ∧
    s.threads[1]? = some (some (.drop0 0)) ∧ Arc.downcast (· % 2) 1 0 s = .ok true s ∧ Arc.downcast (· % 2) 0 0 s = .ok false s :=
  ⟨_, arcEnd true arcRace, arcEnd_calm (by decide +kernel), by decide +kernel, by decide +kernel,
    by decide +kernel, rfl, rfl⟩

/-- A fence of an `Urc<dyn Any>` has 64 bytes, one of an `Urc<T>` has 56. -/
example : 8 * fenceWords true = 64 ∧ 8 * fenceWords false = 56 ∧
    ({ world0 with heap := fun p => if p = 2 then some ⟨0, 64, [none]⟩ else none } : World Nat).heap 2 =
      some ⟨0, 8 * fenceWords true, [none]⟩ := ⟨rfl, rfl, rfl⟩

end Lokky
