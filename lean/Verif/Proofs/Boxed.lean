import Verif.Model.Boxed
import Verif.Proofs.VecRep

/-!
# Running `Box` operations
-/

namespace Lokky
variable {α : Type} {c : Cfg α}

/-- The box points to a live block of its allocator that holds `x`. -/
def Owns (c : Cfg α) (b : BoxH) (w : World α) (x : α) : Prop :=
  w.heap b.ptr = some ⟨b.alloc, c.size, [some x]⟩

/-- The world after the value at `p` became `x`, with `d` dropped. -/
def World.put (w : World α) (c : Cfg α) (b : BoxH) (x : α) (d : List α) : World α :=
  { w with
    heap := fun r => if r = b.ptr then some ⟨b.alloc, c.size, [some x]⟩ else w.heap r
    log := { w.log with drops := w.log.drops ++ d } }

theorem World.put_owns (w : World α) (b : BoxH) (x : α) (d : List α) :
    Owns c b (w.put c b x d) x := by simp [Owns, World.put]

theorem World.put_put (w : World α) (b : BoxH) (x y : α) (d e : List α) :
    (w.put c b x d).put c b y e = w.put c b y (d ++ e) := by
  simp only [World.put, List.append_assoc]
  congr 1
  funext r
  by_cases h : r = b.ptr <;> simp [h]

theorem put_self {w : World α} {b : BoxH} {x : α} (h : Owns c b w x) : w.put c b x [] = w := by
  have : (fun r => if r = b.ptr then some (⟨b.alloc, c.size, [some x]⟩ : Block α) else w.heap r)
      = w.heap := by
    funext r
    by_cases hr : r = b.ptr
    · subst hr; simp only [if_true]; exact h.symm
    · simp [hr]
  simp only [World.put, this, List.append_nil]

/-- Buffer seen through a box. -/
theorem onSlot_eq {β : Type} {m : M (Buf α) β} {b : BoxH} {w : World α} {x : α}
    (h : Owns c b w x) :
    Boxed.onSlot c m ⟨b, w⟩ =
      match m ⟨[some x], Vec.capacity c (Boxed.view b), 1, w.log⟩ with
      | .ok a t => .ok a ⟨b, { w.setSlots (some b.ptr) t.slots with log := t.log }⟩
      | .panic t => .panic ⟨b, { w.setSlots (some b.ptr) t.slots with log := t.log }⟩
      | .abort => .abort
      | .ub u => .ub u := by
  have : w.slots (some b.ptr) = [some x] := by simp only [World.slots]; rw [h]
  simp only [Boxed.onSlot, Vec.onBuf, Boxed.view] at this ⊢
  rw [this]
  cases m _ <;> rfl

theorem setSlots_put {w : World α} {b : BoxH} {x y : α} (h : Owns c b w x) (d : List α)
    (k : Nat) (hk : k = w.log.calls) :
    ({ w.setSlots (some b.ptr) [some y] with log := ⟨w.log.drops ++ d, k⟩ } : World α)
      = w.put c b y d := by
  subst hk
  unfold Owns at h
  simp only [World.setSlots, h, World.put]

theorem Boxed.read_eq {b : BoxH} {w : World α} {x : α} (hs : c.size ≠ 0) (h : Owns c b w x) :
    Boxed.read c ⟨b, w⟩ = .ok x ⟨b, w⟩ := by
  have hp := setSlots_put (y := x) h [] _ rfl
  rw [put_self h] at hp
  simp only [List.append_nil] at hp
  simp only [Boxed.read, onSlot_eq h, Buf.read, hs, if_false, List.getElem?_cons_zero]
  exact congrArg (Res.ok x) (congrArg (St.mk b) hp)

theorem Boxed.assign_eq {b : BoxH} {w : World α} {x y : α} (hs : c.size ≠ 0) (h : Owns c b w x) :
    Boxed.assign c y ⟨b, w⟩ = if c.dropPanics x then .panic ⟨b, w.put c b y [x]⟩
      else .ok () ⟨b, w.put c b y [x]⟩ := by
  have hp := setSlots_put (y := y) h [x] _ rfl
  by_cases hd : c.dropPanics x = true
  · simp [Boxed.assign, onSlot_eq h, M.andAlways, M.onUnwind, M.seq, Buf.dropAt, hs, Buf.onLog,
      dropVal, hd, Buf.write]
    simpa using hp
  · simp [Boxed.assign, onSlot_eq h, M.andAlways, M.onUnwind, M.seq, Buf.dropAt, hs, Buf.onLog,
      dropVal, hd, Buf.write]
    simpa using hp

/-- The world after the box and its value are gone. -/
def World.gone (w : World α) (b : BoxH) (d : List α) : World α :=
  { w with
    heap := fun r => if r = b.ptr then none else w.heap r
    log := { w.log with drops := w.log.drops ++ d } }

theorem Boxed.dealloc_eq {b : BoxH} {w : World α} {x : α} (h : Owns c b w x) :
    Boxed.dealloc c ⟨b, w⟩ = .ok () ⟨b, w.gone b []⟩ := by
  simp only [Boxed.dealloc, M.bind_apply, M.get_apply, liftW, rawDealloc]
  unfold Owns at h
  rw [h]
  simp [World.gone]

theorem Boxed.drop_eq {b : BoxH} {w : World α} {x : α} (hs : c.size ≠ 0) (h : Owns c b w x) :
    Boxed.drop c ⟨b, w⟩ = if c.dropPanics x then .panic ⟨b, w.put c b x [x]⟩
      else .ok () ⟨b, (w.put c b x [x]).gone b []⟩ := by
  have hp := setSlots_put (y := x) h [x] _ rfl
  have e : Boxed.onSlot c (Buf.dropAt c 0) ⟨b, w⟩ =
      if c.dropPanics x then .panic ⟨b, w.put c b x [x]⟩
      else .ok () ⟨b, w.put c b x [x]⟩ := by
    by_cases hd : c.dropPanics x = true
    · simp [onSlot_eq h, Buf.dropAt, hs, Buf.onLog, dropVal, hd]
      simpa using hp
    · simp [onSlot_eq h, Buf.dropAt, hs, Buf.onLog, dropVal, hd]
      simpa using hp
  by_cases hd : c.dropPanics x = true
  · simp [Boxed.drop, M.bind_apply, e, hd]
  · simp only [Boxed.drop, M.bind_apply, e, hd]
    exact Boxed.dealloc_eq (World.put_owns _ _ _ _)

/-- Reading a box and releasing its memory, as `into_inner` does, leaves a box whose drop accesses
released memory. -/
theorem Boxed.intoInner_eq {b : BoxH} {w : World α} {x : α} (hs : c.size ≠ 0)
    (h : Owns c b w x) : Boxed.intoInner c ⟨b, w⟩ = .ub .oob := by
  simp only [Boxed.intoInner]
  rw [M.bind_ok (Boxed.read_eq hs h), M.bind_ok (Boxed.dealloc_eq h)]
  apply M.bind_ub
  simp [Boxed.drop, M.bind_apply, Boxed.onSlot, Vec.onBuf, Boxed.view, World.slots, World.gone,
    Buf.dropAt, hs]

/-- The world right after a block for one value was supplied by allocator `a`. -/
def World.fresh (w : World α) (c : Cfg α) (a : Nat) : World α :=
  { w with
    heap := fun p => if p = w.next then some ⟨a, c.size, [none]⟩ else w.heap p
    next := w.next + 1
    tick := w.tick + 1 }

theorem rawAlloc_one {w : World α} {a : Nat} (hs : c.size ≠ 0)
    (hg : c.grant w.tick c.size = true) :
    rawAlloc c a c.size w = .ok (some w.next) (w.fresh c a) := by
  simp [rawAlloc, hs, hg, World.fresh, Nat.div_self (Nat.pos_of_ne_zero hs)]

/-- Assigning into the fresh block: what is there is dropped first. -/
theorem assign_fresh {w : World α} {a : Nat} {m : Marker} {x : α} (hs : c.size ≠ 0) :
    Boxed.assign c x ⟨⟨w.next, a, m⟩, w.fresh c a⟩ =
      if c.needsDrop then .ub .uninit
      else .ok () ⟨⟨w.next, a, m⟩, (w.fresh c a).put c ⟨w.next, a, m⟩ x []⟩ := by
  by_cases hn : c.needsDrop = true
  · simp [Boxed.assign, Boxed.onSlot, Vec.onBuf, Boxed.view, World.slots, World.fresh,
      M.andAlways, M.onUnwind, M.seq, Buf.dropAt, hs, hn]
  · simp only [Bool.not_eq_true] at hn
    simp [Boxed.assign, Boxed.onSlot, Vec.onBuf, Boxed.view, World.slots, World.fresh,
      M.andAlways, M.onUnwind, M.seq, Buf.dropAt, hs, hn, Buf.write, World.setSlots, World.put]

theorem Boxed.tryNew_granted {w : World α} {m : Marker} {x : α} (hs : c.size ≠ 0)
    (hg : c.grant w.tick c.size = true) :
    Boxed.tryNew c x m w = if c.needsDrop then .ub .uninit
      else .ok (.ok ⟨w.next, w.allocFor m, m⟩)
        ((w.fresh c (w.allocFor m)).put c ⟨w.next, w.allocFor m, m⟩ x []) := by
  simp only [Boxed.tryNew]
  rw [M.bind_ok (M.get_apply w), M.bind_ok (rawAlloc_one hs hg)]
  simp only [withLocal, M.bind_apply, M.onUnwind, assign_fresh hs]
  by_cases hn : c.needsDrop = true <;> simp [hn]

theorem Boxed.tryNew_refused {w : World α} {m : Marker} {x : α} (hs : c.size ≠ 0)
    (hg : c.grant w.tick c.size = false) :
    Boxed.tryNew c x m w = (do World.onLog (dropVal c x); pure (.error .allocError) :
      M (World α) (Except AllocErr BoxH))
      { w with tick := w.tick + 1, refusals := w.refusals + 1 } := by
  have : rawAlloc c (w.allocFor m) c.size w
      = .ok none { w with tick := w.tick + 1, refusals := w.refusals + 1 } := by
    simp [rawAlloc, hs, hg]
  simp only [Boxed.tryNew]
  rw [M.bind_ok (M.get_apply w), M.bind_ok this]

/-- `Box::new` of a zero-sized value asks the allocator for zero bytes. -/
theorem Boxed.tryNew_zst {w : World α} {m : Marker} {x : α} (hs : c.size = 0) :
    Boxed.tryNew c x m w = .ub .zeroSize := by
  simp [Boxed.tryNew, M.bind_apply, rawAlloc, hs]

theorem Boxed.assigns_eq {b : BoxH} (hs : c.size ≠ 0) (hd : ∀ a, c.dropPanics a = false) :
    ∀ (ys : List α) {w : World α} {x : α}, Owns c b w x →
      Boxed.assigns c ys ⟨b, w⟩ =
        .ok () ⟨b, w.put c b ((x :: ys).getLast (by simp)) ((x :: ys).dropLast)⟩
  | [], w, x, h => by
    show Res.ok () _ = _
    rw [List.getLast_singleton, List.dropLast_singleton, put_self h]
  | y :: ys, w, x, h => by
    simp only [Boxed.assigns]
    have e := Boxed.assign_eq (y := y) hs h
    rw [hd x] at e
    rw [M.bind_ok e, Boxed.assigns_eq hs hd ys (World.put_owns w b y [x]), World.put_put]
    simp

end Lokky
