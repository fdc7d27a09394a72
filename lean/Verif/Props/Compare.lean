import Verif.Model.Compare
import Verif.Proofs.UrcPlain
import Verif.Props.Arc
import Verif.Props.Urc
import Verif.Props.Boxed

/-!
# C109–C112: comparison, hashing and identity of `Box`, `Rc`, `Arc` and `Urc`; `Weak` as text; `Rc` of a `Box`

`r : Rels α H` are the functions of the value's type: `==`, `<`, …, and `hash`, which feeds a hasher.
-/

namespace Lokky
open Spec
variable {α H : Type} {c : Cfg α} (r : Rels α H)

/-! ## C109 -/

/-- C109 for `Box`. Equality and `cmp` are C80. -/
theorem C109_box (hs : c.size ≠ 0) (b b' : BoxH) (w : World α) (x y : α)
    (h : w.heap b.ptr = some ⟨b.alloc, c.size, [some x]⟩)
    (h' : w.heap b'.ptr = some ⟨b'.alloc, c.size, [some y]⟩) (k : H) :
    Boxed.partialCmp c r ⟨(b, b'), w⟩ = .ok (r.partialCmp x y) ⟨(b, b'), w⟩ ∧
    Boxed.hash c r k ⟨b, w⟩ = .ok (r.hash x k) ⟨b, w⟩ := by
  constructor
  · simp [Boxed.partialCmp, M.bind_apply, onPart, Boxed.read_eq hs h, Boxed.read_eq hs h']
  · simp [Boxed.hash, M.bind_apply, Boxed.read_eq hs h]

example : ∃ (b b' : BoxH) (w : World Nat), b.ptr ≠ b'.ptr ∧
    w.heap b.ptr = some ⟨b.alloc, cfg64.size, [some 3]⟩ ∧
    w.heap b'.ptr = some ⟨b'.alloc, cfg64.size, [some 5]⟩ :=
  ⟨⟨0, 0, none⟩, ⟨1, 2, some 4⟩,
   { world0 with heap := fun p => if p = 0 then some ⟨0, 8, [some 3]⟩
      else if p = 1 then some ⟨2, 8, [some 5]⟩ else none }, by simp, rfl, rfl⟩

/-- What two `Rc`s of the boxes `p` and `q` do when they are compared or hashed is what the values `x` and `y`
do, and nothing changes. -/
def RcCompares (w : RcWorld α) (p q : Nat) (x y : α) : Prop :=
  Rc.eq r p q w = .ok (r.eq x y) w ∧ Rc.partialCmp r p q w = .ok (r.partialCmp x y) w ∧
  Rc.cmp r p q w = .ok (r.cmp x y) w ∧ ∀ k, Rc.hash r p k w = .ok (r.hash x k) w

/-- C109 for `Rc`, after all histories: the values compared are those that reading the handles gives. -/
theorem C109_rc {hist : RcHistory α} {P : RcPool α} (h : RcReaches c RcCmd.Callable hist P)
    (hl : hist.length < c.usizeMax) {i j p q : Nat}
    (hi : P.hands[i]? = some (some (.rc p))) (hj : P.hands[j]? = some (some (.rc q))) :
    ∃ x y, runRc c (.read i) P = .ok (.val x) P ∧ runRc c (.read j) P = .ok (.val y) P ∧
      RcCompares r P.w p q x y := by
  obtain ⟨I, -⟩ := h.inv hl
  obtain ⟨b, hb, -⟩ := I.box p (I.rc_lt hi)
  obtain ⟨b', hb', -⟩ := I.box q (I.rc_lt hj)
  refine ⟨b.val, b'.val, ?_, ?_, ?_, ?_, ?_, fun k => ?_⟩
  · simp only [runRc, hi, RcPool.look, RcPool.on, Rc.asRef_eq hb]
  · simp only [runRc, hj, RcPool.look, RcPool.on, Rc.asRef_eq hb']
  · simp only [Rc.eq, M.bind_apply, Rc.asRef_eq hb, Rc.asRef_eq hb', M.pure_apply]
  · simp only [Rc.partialCmp, M.bind_apply, Rc.asRef_eq hb, Rc.asRef_eq hb', M.pure_apply]
  · simp only [Rc.cmp, M.bind_apply, Rc.asRef_eq hb, Rc.asRef_eq hb', M.pure_apply]
  · simp only [Rc.hash, M.bind_apply, Rc.asRef_eq hb, M.pure_apply]

example : ∃ hist P, RcReaches cfg64 RcCmd.Callable hist P ∧ hist.length < cfg64.usizeMax ∧
    P.hands[0]? = some (some (.rc 0)) ∧ P.hands[1]? = some (some (.rc 1)) :=
  ⟨_, ⟨[some (.rc 0), some (.rc 1)], ⟨[some ⟨1, 0, 7⟩, some ⟨1, 0, 8⟩], 2, 0, 0, []⟩⟩,
    rcTrace_callable (cs := [.new 7, .new 8]) (evs := [.ret .unit, .ret .unit]) (by decide +kernel),
    by decide +kernel, rfl, rfl⟩

/-- What two `Arc`s of the objects `p` and `q` do when they are compared or hashed is what the values `x` and `y`
do, and nothing changes. -/
def ArcCompares (s : ArcSys α) (p q : Nat) (x y : α) : Prop :=
  Arc.eq r p q s = .ok (r.eq x y) s ∧ Arc.partialCmp r p q s = .ok (r.partialCmp x y) s ∧
  Arc.lt r p q s = .ok (r.lt x y) s ∧ Arc.le r p q s = .ok (r.le x y) s ∧
  Arc.gt r p q s = .ok (r.gt x y) s ∧ Arc.ge r p q s = .ok (r.ge x y) s ∧
  Arc.cmp r p q s = .ok (r.cmp x y) s ∧ ∀ k, Arc.hash r p k s = .ok (r.hash x k) s

/-- C109 for `Arc`, in all runs in which `make_mut` is not refused memory. -/
theorem C109_arc_partial {mx n : Nat} {s : ArcSys α} (h : ArcReaches mx True n s) (hn : n ≤ mx) {i j p q : Nat}
    (hi : s.hands[i]? = some (some p)) (hj : s.hands[j]? = some (some q)) :
    ∃ o o' : ArcObj α, s.objs[p]? = some o ∧ s.objs[q]? = some o' ∧ o.alive = true ∧ o'.alive = true ∧
      ArcCompares r s p q o.val o'.val := by
  have I := h.inv hn
  obtain ⟨o, ho, -, ha, hf, -⟩ := I.live (ArcInv.own_pos_of_hand hi) (h.whole.not_lost p)
  obtain ⟨o', ho', -, ha', hf', -⟩ := I.live (ArcInv.own_pos_of_hand hj) (h.whole.not_lost q)
  have e := ArcInv.data_ok ho hf ha
  have e' := ArcInv.data_ok ho' hf' ha'
  refine ⟨o, o', ho, ho', ha, ha', ?_, ?_, ?_, ?_, ?_, ?_, ?_, fun k => ?_⟩
  · simp only [Arc.eq, M.bind_apply, e, e', M.pure_apply]
  · simp only [Arc.partialCmp, M.bind_apply, e, e', M.pure_apply]
  · simp only [Arc.lt, M.bind_apply, e, e', M.pure_apply]
  · simp only [Arc.le, M.bind_apply, e, e', M.pure_apply]
  · simp only [Arc.gt, M.bind_apply, e, e', M.pure_apply]
  · simp only [Arc.ge, M.bind_apply, e, e', M.pure_apply]
  · simp only [Arc.cmp, M.bind_apply, e, e', M.pure_apply]
  · simp only [Arc.hash, M.bind_apply, e, M.pure_apply]

/-- C109 is false for `Arc` where `make_mut` was refused memory: the value of handle 1 is gone. -/
theorem C109_arc_refuted : ∃ (n : Nat) (s : ArcSys Nat), ArcReaches arcMax False n s ∧ n < arcMax ∧
    s.hands[1]? = some (some 0) ∧ ∀ r : Rels Nat Nat, Arc.eq r 0 0 s = .ub .uninit :=
  ⟨_, arcEnd false arcSpent, arcEnd_any (by decide +kernel), by decide +kernel, by decide +kernel, fun _ => rfl⟩

example : ∃ (n : Nat) (s : ArcSys Nat), ArcReaches arcMax True n s ∧ n ≤ arcMax ∧
    s.hands[0]? = some (some 0) ∧ s.hands[1]? = some (some 1) :=
  ⟨_, arcEnd true [.new 0 7, .new 0 8], arcEnd_calm (by decide +kernel), by decide +kernel, by decide +kernel,
    by decide +kernel⟩

/-- What two `Urc`s of the fences `f` and `g` do when they are compared or hashed is what the values `x` and `y`
do, and nothing changes. -/
def UrcCompares (w : UrcWorld α) (f g : Nat) (x y : α) : Prop :=
  Urc.eq r f g w = .ok (r.eq x y) w ∧ Urc.partialCmp r f g w = .ok (r.partialCmp x y) w ∧
  Urc.lt r f g w = .ok (r.lt x y) w ∧ Urc.le r f g w = .ok (r.le x y) w ∧
  Urc.gt r f g w = .ok (r.gt x y) w ∧ Urc.ge r f g w = .ok (r.ge x y) w ∧
  Urc.cmp r f g w = .ok (r.cmp x y) w ∧ ∀ k, Urc.hash r f k w = .ok (r.hash x k) w

/-- C109 for `Urc`, after permitted histories. -/
theorem C109_urc_partial {hist : List (UrcCmd α × Option (UrcOut α))} {P : UrcPool α}
    (h : UrcReaches c (UrcCmd.Permitted c) hist P) (hl : hist.length ≤ c.usizeMax) {i j f g : Nat}
    (hi : P.hands[i]? = some (some (.urc f))) (hj : P.hands[j]? = some (some (.urc g))) :
    ∃ x y, P.Reads c i x ∧ P.Reads c j y ∧ UrcCompares r P.w f g x y := by
  have I := h.inv hl
  obtain ⟨F, x, hF, hx, ha, -⟩ := I.ok.owner (urcCount_pos hi) trivial
  obtain ⟨G, y, hG, hy, hb, -⟩ := I.ok.owner (urcCount_pos hj) trivial
  have e : Urc.asRef f P.w = .ok x.val P.w := Urc.asRef_eq hF hx ha
  have e' : Urc.asRef g P.w = .ok y.val P.w := Urc.asRef_eq hG hy hb
  refine ⟨x.val, y.val, (reads_iff hi).mpr ⟨F, x, hF, hx, ha, rfl⟩, (reads_iff hj).mpr ⟨G, y, hG, hy, hb, rfl⟩,
    ?_, ?_, ?_, ?_, ?_, ?_, ?_, fun k => ?_⟩
  · simp only [Urc.eq, M.bind_apply, e, e', M.pure_apply]
  · simp only [Urc.partialCmp, M.bind_apply, e, e', M.pure_apply]
  · simp only [Urc.lt, M.bind_apply, e, e', M.pure_apply]
  · simp only [Urc.le, M.bind_apply, e, e', M.pure_apply]
  · simp only [Urc.gt, M.bind_apply, e, e', M.pure_apply]
  · simp only [Urc.ge, M.bind_apply, e, e', M.pure_apply]
  · simp only [Urc.cmp, M.bind_apply, e, e', M.pure_apply]
  · simp only [Urc.hash, M.bind_apply, e, M.pure_apply]

/-- C109 is false for `Urc` after other histories: `make_mut` has moved the value of handle 1 away. -/
theorem C109_urc_refuted : ∃ P, UrcReaches cfgRcRelease UrcAny
    [(.new 7, some .unit), (.clone 0, some .unit), (.makeMut 0 (· + 1), some (.val 7))] P ∧
    P.hands[1]? = some (some (.urc 0)) ∧ ∀ r : Rels Nat Nat, Urc.eq r 0 0 P.w = .ub .uninit :=
  ⟨_, urcTrace_callable (cs := [.new 7, .clone 0, .makeMut 0 (· + 1)])
    (evs := [some .unit, some .unit, some (.val 7)]) (P := ⟨[some (.urc 1), some (.urc 0)],
      ⟨[some ⟨0, 1, 7, false, 0⟩, some ⟨1, 0, 8, true, 0⟩],
       [some ⟨2 ^ 64 - 1, 2 ^ 64 - 1, 0⟩, some ⟨1, 0, 1⟩], 4, 0, []⟩⟩) (by decide +kernel), rfl, fun _ => rfl⟩

example : ∃ hist P, UrcReaches cfg64 (UrcCmd.Permitted cfg64) hist P ∧ hist.length ≤ cfg64.usizeMax ∧
    P.hands[0]? = some (some (.urc 0)) ∧ P.hands[1]? = some (some (.urc 1)) ∧ P.Reads cfg64 0 7 ∧ P.Reads cfg64 1 8 :=
  ⟨_, ⟨[some (.urc 0), some (.urc 1)], ⟨[some ⟨1, 0, 7, true, 0⟩, some ⟨1, 0, 8, true, 0⟩],
      [some ⟨1, 0, 0⟩, some ⟨1, 0, 1⟩], 4, 0, []⟩⟩,
    urcTrace_permitted (cs := [.new 7, .new 8]) (evs := [some .unit, some .unit]) (by decide +kernel),
    by decide +kernel, rfl, rfl, rfl, rfl⟩

/-! ## C110, for `Rc`; see `PtrEq.lean` for `Arc` and `Urc` -/

/-- C110 for `Rc`, after all histories: a clone is of the same object as the original, and a new handle is of the
same object as none of those before. -/
theorem C110_rc {hist : RcHistory α} {P : RcPool α} (h : RcReaches c RcCmd.Callable hist P)
    (hl : hist.length < c.usizeMax) {i p : Nat} (hi : P.hands[i]? = some (some (.rc p)))
    {P' : RcPool α} {o : RcOut α} :
    (runRc c (.clone i) P = .ok o P' → runRc c (.ptrEq i P.hands.length) P' = .ok (.bool true) P') ∧
    (∀ x, runRc c (.new x) P = .ok o P' → runRc c (.ptrEq i P.hands.length) P' = .ok (.bool false) P') := by
  obtain ⟨I, -⟩ := h.inv hl
  have hil := (List.getElem?_eq_some_iff.mp hi).1
  have hp := I.rc_lt hi
  refine ⟨fun e => ?_, fun x e => ?_⟩
  · simp only [runRc, hi, RcPool.make, RcPool.on] at e
    cases hr : Rc.clone c p P.w with
    | ok q w' =>
      have hq : q = p := by
        rw [Rc.clone, M.bind_apply] at hr
        cases hs : Rc.incStrong c p P.w with
        | ok n w1 => rw [hs] at hr; injection hr with h1 h2; exact h1.symm
        | panic w1 => rw [hs] at hr; cases hr
        | abort => rw [hs] at hr; cases hr
        | ub u => rw [hs] at hr; cases hr
      rw [hr] at e
      injection e with _ e
      subst e hq
      simp [runRc, List.getElem?_append_left hil, hi]
    | panic w' => rw [hr] at e; cases e
    | abort => rw [hr] at e; cases e
    | ub u => rw [hr] at e; cases e
  · simp only [runRc, RcPool.make, RcPool.on, Rc.new, Rc.alloc, M.bind_apply] at e
    by_cases hg : c.grant P.w.tick c.size = true
    · simp only [if_pos hg, M.pure_apply] at e
      injection e with _ e
      subst e
      simp [runRc, List.getElem?_append_left hil, hi, Nat.ne_of_lt hp]
    · simp only [if_neg hg, M.boom_apply] at e
      cases e

example : ∃ hist P P', RcReaches cfg64 RcCmd.Callable hist P ∧ hist.length < cfg64.usizeMax ∧
    P.hands[0]? = some (some (.rc 0)) ∧ runRc cfg64 (.clone 0) P = .ok .unit P' :=
  ⟨_, ⟨[some (.rc 0)], ⟨[some ⟨1, 0, 7⟩], 1, 0, 0, []⟩⟩, _,
    rcTrace_callable (cs := [.new 7]) (evs := [.ret .unit]) (by decide +kernel), by decide +kernel, rfl, rfl⟩

/-! ## C111 -/

/-- C111 for permitted histories: as long as there is an `Rc`, a `Weak` shows the value that it reads; one made by
`Weak::new` shows that it is null. -/
theorem C111_weak_debug_partial {hist : RcHistory α} {P : RcPool α} (h : RcReaches c RcCmd.Permitted hist P)
    (hcl : FaithfulClone c) (hl : hist.length + 1 < c.usizeMax) {i : Nat} {p : Option Nat}
    (hi : P.hands[i]? = some (some (.weak p))) :
    ∃ t, Rc.weakDebug p P.w = .ok t P.w ∧ (t = .null ↔ p = none) ∧
      ∀ j q, p = some q → P.hands[j]? = some (some (.rc q)) →
        ∃ x, runRc c (.read j) P = .ok (.val x) P ∧ t = .value x := by
  obtain ⟨S, -, I, -, -⟩ := h.sound hcl hl
  cases p with
  | none => exact ⟨.null, rfl, by simp, by simp⟩
  | some p =>
    obtain ⟨o, b, ho, hb, -, hv, hw, hs, -⟩ := I.atWeak hi
    refine ⟨if b.strong = 0 then .deallocated else .value b.val, ?_, ?_, ?_⟩
    · simp only [Rc.weakDebug, M.bind_apply, Rc.inner_eq hb]
      split <;> rfl
    · split <;> simp
    · rintro j q ⟨⟩ hj
      obtain ⟨-, b', -, hb', -, -, -, -, h1⟩ := I.atRc hj
      rw [hb] at hb'
      cases hb'
      exact ⟨b.val, by simp only [runRc, hj, RcPool.look, RcPool.on, Rc.asRef_eq hb], if_neg (by omega)⟩

/-- C111 is false: a `Weak` whose last `Rc` was dropped still shows the value. -/
theorem C111_refuted : ∃ P, RcReaches cfg64 RcCmd.Permitted
    [(.new 7, .ret .unit), (.downgrade 0, .ret .unit), (.drop 0, .ret .unit)] P ∧
    P.hands = [none, some (.weak (some 0))] ∧ Rc.weakDebug (some 0) P.w = .ok (.value 7) P.w :=
  ⟨⟨[none, some (.weak (some 0))], ⟨[some ⟨1, 1, 7⟩], 1, 0, 0, []⟩⟩,
    rcTrace_permitted (cs := [.new 7, .downgrade 0, .drop 0]) (evs := [.ret .unit, .ret .unit, .ret .unit])
      (by decide +kernel), rfl, rfl⟩

example : ∃ hist P, RcReaches cfg64 RcCmd.Permitted hist P ∧ hist.length + 1 < cfg64.usizeMax ∧
    P.hands[0]? = some (some (.rc 0)) ∧ P.hands[1]? = some (some (.weak (some 0))) ∧
    Rc.weakDebug (some 0) P.w = .ok (.value 7) P.w :=
  ⟨_, ⟨[some (.rc 0), some (.weak (some 0))], ⟨[some ⟨1, 1, 7⟩], 1, 0, 0, []⟩⟩,
    rcTrace_permitted (cs := [.new 7, .downgrade 0]) (evs := [.ret .unit, .ret .unit]) (by decide +kernel),
    by decide +kernel, rfl, rfl, rfl⟩

/-! ## C112 -/

/-- C112 fails for every box of a type of non-zero size: `into_inner` touches the block after it was released
(C27). -/
theorem C112_refuted (hs : c.size ≠ 0) (b : BoxH) (w : World α) (x : α)
    (h : w.heap b.ptr = some ⟨b.alloc, c.size, [some x]⟩) (v : RcWorld α) :
    Rc.fromBox c (⟨b, w⟩, v) = .ub .oob := by
  simp only [Rc.fromBox, C27_refuted hs b w x h]

example : ∃ (b : BoxH) (w : World Nat), w.heap b.ptr = some ⟨b.alloc, cfg64.size, [some 3]⟩ :=
  ⟨⟨0, 0, none⟩, { world0 with heap := fun p => if p = 0 then some ⟨0, 8, [some 3]⟩ else none }, rfl⟩

end Lokky
