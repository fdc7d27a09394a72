import Verif.Model.BoxIter
import Verif.Proofs.Boxed
import Verif.Props.Witness

/-!
# Boxed iterators and hashers (C113)
-/

namespace Lokky
variable {α β γ : Type} {c : Cfg α} {r : IterFns α β} {k : HasherFns α}

/-- The call on the value itself: result (`none`: it panics) and the value afterwards. -/
def direct (r : IterFns α β) (k : HasherFns α) : BoxCall → α → Option (BoxRet β) × α
  | .next, a => ((r.next a).1.map .item, (r.next a).2)
  | .sizeHint, a => ((r.sizeHint a).map .hint, a)
  | .nth n, a => ((r.nth n a).1.map .item, (r.nth n a).2)
  | .nextBack, a => ((r.nextBack a).1.map .item, (r.nextBack a).2)
  | .nthBack n, a => ((r.nthBack n a).1.map .item, (r.nthBack n a).2)
  | .len, a => ((r.len a).map .nat, a)
  | .finish, a => ((k.finish a).map .code, a)
  | .write l, a => ((k.write l a).1.map fun _ => .unit, (k.write l a).2)

/-- Calls on the value itself, one after the other. -/
def directs (r : IterFns α β) (k : HasherFns α) : List BoxCall → α → List (Option (BoxRet β)) × α
  | [], a => ([], a)
  | q :: qs, a =>
    ((direct r k q a).1 :: (directs r k qs (direct r k q a).2).1, (directs r k qs (direct r k q a).2).2)

theorem Boxed.mutMethod_eq {b : BoxH} {w : World α} {x : α} (hs : c.size ≠ 0) (h : Owns c b w x)
    (f : α → Option γ × α) : Boxed.mutMethod c f ⟨b, w⟩ =
      match (f x).1 with
      | some y => .ok y ⟨b, w.put c b (f x).2 []⟩
      | none => .panic ⟨b, w.put c b (f x).2 []⟩ := by
  have hp := setSlots_put (y := (f x).2) h [] _ rfl
  simp only [List.append_nil] at hp
  unfold Boxed.mutMethod
  rw [onSlot_eq h]
  cases hf : (f x).1 with
  | none =>
    simp only [M.bind_apply, Buf.read, Buf.write, hs, if_false, List.getElem?_cons_zero, List.length_singleton,
      Nat.zero_lt_one, if_true, List.set_cons_zero, hf, M.boom]
    exact congrArg Res.panic (congrArg (St.mk b) hp)
  | some y =>
    simp only [M.bind_apply, Buf.read, Buf.write, hs, if_false, List.getElem?_cons_zero, List.length_singleton,
      Nat.zero_lt_one, if_true, List.set_cons_zero, hf, M.pure_apply]
    exact congrArg (Res.ok y) (congrArg (St.mk b) hp)

theorem Boxed.refMethod_eq {b : BoxH} {w : World α} {x : α} (hs : c.size ≠ 0) (h : Owns c b w x)
    (f : α → Option γ) : Boxed.refMethod c f ⟨b, w⟩ =
      match f x with
      | some y => .ok y ⟨b, w⟩
      | none => .panic ⟨b, w⟩ := by
  unfold Boxed.refMethod
  rw [M.bind_ok (Boxed.read_eq hs h)]
  cases f x <;> rfl

theorem runBoxCall_eq {b : BoxH} {w : World α} {x : α} (hs : c.size ≠ 0) (h : Owns c b w x) (q : BoxCall) :
    runBoxCall c r k q ⟨b, w⟩ =
      match (direct r k q x).1 with
      | some y => .ok y ⟨b, w.put c b (direct r k q x).2 []⟩
      | none => .panic ⟨b, w.put c b (direct r k q x).2 []⟩ := by
  cases q with
  | next | nth | nextBack | nthBack =>
    simp only [runBoxCall, M.bind_apply, Boxed.next, Boxed.nth, Boxed.nextBack, Boxed.nthBack,
      Boxed.mutMethod_eq hs h, direct]
    first
    | cases (r.next x).1 <;> rfl
    | cases (r.nextBack x).1 <;> rfl
    | cases (r.nth _ x).1 <;> rfl
    | cases (r.nthBack _ x).1 <;> rfl
  | write l =>
    simp only [runBoxCall, M.bind_apply, Boxed.write, Boxed.mutMethod_eq hs h, direct]
    cases (k.write l x).1 <;> rfl
  | sizeHint | len | finish =>
    simp only [runBoxCall, M.bind_apply, Boxed.sizeHint, Boxed.exactLen, Boxed.finish, Boxed.refMethod_eq hs h,
      direct, put_self h]
    first
    | cases r.sizeHint x <;> rfl
    | cases r.len x <;> rfl
    | cases k.finish x <;> rfl

/-- C113. Whatever calls are made on the boxed value, each returns (or panics) as it does on the value itself, and
in the end the box holds what the value would be; no value is dropped, no other memory changes. -/
theorem C113_boxed_calls (hs : c.size ≠ 0) (b : BoxH) (qs : List BoxCall) : ∀ (w : World α) (x : α),
    w.heap b.ptr = some ⟨b.alloc, c.size, [some x]⟩ →
    ∃ w', runBoxCalls c r k qs ⟨b, w⟩ = .ok (directs r k qs x).1 ⟨b, w'⟩ ∧
      w'.heap b.ptr = some ⟨b.alloc, c.size, [some (directs r k qs x).2]⟩ ∧
      (∀ p, p ≠ b.ptr → w'.heap p = w.heap p) ∧ w'.log = w.log := by
  induction qs with
  | nil => exact fun w x h => ⟨w, rfl, h, fun _ _ => rfl, rfl⟩
  | cons q qs ih =>
    intro w x h
    obtain ⟨w', e, h1, h2, h3⟩ := ih (w.put c b (direct r k q x).2 []) (direct r k q x).2
      (World.put_owns w b _ [])
    refine ⟨w', ?_, h1, fun p hp => ?_, ?_⟩
    · unfold runBoxCalls
      simp only [runBoxCall_eq hs h q, directs]
      cases (direct r k q x).1 <;> simp only [M.bind_apply, e, M.pure_apply]
    · rw [h2 p hp]; simp [World.put, hp]
    · rw [h3]; simp [World.put]

/-- Counting down from `a`, from the front; `nth` skips. -/
def countdown : IterFns Nat Nat where
  next a := if a = 0 then (some none, 0) else (some (some a), a - 1)
  sizeHint a := some (a, some a)
  nth n a := if a ≤ n then (some none, 0) else (some (some (a - n)), a - n - 1)
  nextBack a := (none, a)
  nthBack _ a := (none, a)
  len a := some a

def sumHasher : HasherFns Nat where
  finish a := some a.toUInt64
  write l a := (some (), a + l.length)

example : (directs countdown sumHasher [.next, .nth 1, .write [0, 0, 0], .len, .nextBack, .next] 9).1 =
      [some (.item (some 9)), some (.item (some 7)), some .unit, some (.nat 9), none, some (.item (some 9))] ∧
    ∃ (b : BoxH) (w : World Nat), w.heap b.ptr = some ⟨b.alloc, cfg64.size, [some 9]⟩ :=
  ⟨by decide +kernel, ⟨0, 0, none⟩, { world0 with heap := fun _ => some ⟨0, cfg64.size, [some 9]⟩ }, rfl⟩

end Lokky
