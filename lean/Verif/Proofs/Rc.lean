import Verif.Model.Rc

/-!
# Lemmas about `Rc`
-/

namespace Lokky
open Spec
variable {α β γ σ : Type} {c : Cfg α}

/-- The code returns with `Q` or unwinds with `E`. -/
def Ends (r : Res σ β) (Q : β → σ → Prop) (E : σ → Prop) : Prop :=
  match r with
  | .ok a s => Q a s
  | .panic s => E s
  | .abort => False
  | .ub _ => False

theorem Ends.mono {r : Res σ β} {Q Q' : β → σ → Prop} {E E' : σ → Prop} (h : Ends r Q E)
    (hQ : ∀ a s, Q a s → Q' a s) (hE : ∀ s, E s → E' s) : Ends r Q' E' := by
  cases r with
  | ok a s => exact hQ a s h
  | panic s => exact hE s h
  | abort => exact h
  | ub u => exact h

theorem Ends.bind {m : M σ β} {f : β → M σ γ} {s : σ} {Q : β → σ → Prop} {E : σ → Prop}
    {Q' : γ → σ → Prop} (h : Ends (m s) Q E) (hf : ∀ a s', Q a s' → Ends (f a s') Q' E) :
    Ends ((m >>= f) s) Q' E := by
  rw [M.bind_apply]
  cases hr : m s with
  | ok a s' => rw [hr] at h; exact hf a s' h
  | panic s' => rw [hr] at h; exact h
  | abort => rw [hr] at h; exact h
  | ub u => rw [hr] at h; exact h

theorem Ends.of_ok {r : Res σ β} {a : β} {s : σ} {Q : β → σ → Prop} {E : σ → Prop}
    (e : r = .ok a s) (h : Q a s) : Ends r Q E := by rw [e]; exact h

theorem Ends.of_panic {r : Res σ β} {s : σ} {Q : β → σ → Prop} {E : σ → Prop}
    (e : r = .panic s) (h : E s) : Ends r Q E := by rw [e]; exact h

theorem uadd_ends (a b : Nat) (s : σ) :
    Ends (uadd c a b s) (fun _ s' => s' = s) (fun s' => s' = s) := by
  unfold uadd
  split
  · exact rfl
  · split <;> exact rfl

theorem usub_ends (a b : Nat) (s : σ) :
    Ends (usub c a b s) (fun _ s' => s' = s) (fun s' => s' = s) := by
  unfold usub
  split
  · exact rfl
  · split <;> exact rfl

/-! ## Counting handles -/

namespace Spec.Hands

theorem rcs_push (H : Hands) (k : Option Hand) (p : Nat) :
    rcs (H ++ [k]) p = rcs H p + if k = some (.rc p) then 1 else 0 := by
  simp only [rcs, List.count_append, List.count_singleton, beq_iff_eq]

theorem weaks_push (H : Hands) (k : Option Hand) (p : Nat) :
    weaks (H ++ [k]) p = weaks H p + if k = some (.weak (some p)) then 1 else 0 := by
  simp only [weaks, List.count_append, List.count_singleton, beq_iff_eq]

theorem count_set (H : Hands) {h : Nat} {k : Option Hand} (hk : H[h]? = some k) (k' a : Option Hand) :
    (H.set h k').count a + (if k = a then 1 else 0) = H.count a + if k' = a then 1 else 0 := by
  obtain ⟨hl, e⟩ := List.getElem?_eq_some_iff.mp hk
  rw [List.count_set hl, e]
  have : (if k = a then 1 else 0) ≤ H.count a := by
    split
    · rename_i e'
      subst e' e
      exact List.count_pos_iff.mpr (List.getElem_mem hl)
    · omega
  simp only [beq_iff_eq]
  omega

theorem rcs_set (H : Hands) {h : Nat} {k : Option Hand} (hk : H[h]? = some k) (k' : Option Hand)
    (p : Nat) : rcs (H.set h k') p + (if k = some (.rc p) then 1 else 0)
      = rcs H p + if k' = some (.rc p) then 1 else 0 := count_set H hk k' _

theorem weaks_set (H : Hands) {h : Nat} {k : Option Hand} (hk : H[h]? = some k) (k' : Option Hand)
    (p : Nat) : weaks (H.set h k') p + (if k = some (.weak (some p)) then 1 else 0)
      = weaks H p + if k' = some (.weak (some p)) then 1 else 0 := count_set H hk k' _

theorem rcs_pos {H : Hands} {h p : Nat} (hk : H[h]? = some (some (.rc p))) : 1 ≤ rcs H p := by
  obtain ⟨hl, e⟩ := List.getElem?_eq_some_iff.mp hk
  exact List.count_pos_iff.mpr (e ▸ List.getElem_mem hl)

theorem weaks_pos {H : Hands} {h p : Nat} (hk : H[h]? = some (some (.weak (some p)))) :
    1 ≤ weaks H p := by
  obtain ⟨hl, e⟩ := List.getElem?_eq_some_iff.mp hk
  exact List.count_pos_iff.mpr (e ▸ List.getElem_mem hl)

theorem rcs_le (H : Hands) (p : Nat) : rcs H p ≤ H.length := List.count_le_length
theorem weaks_le (H : Hands) (p : Nat) : weaks H p ≤ H.length := List.count_le_length

end Spec.Hands

/-! ## The operations -/

/-- Storing a box. -/
def RcWorld.put (w : RcWorld α) (p : Nat) (b : RcBox α) : RcWorld α :=
  { w with boxes := w.boxes.set p (some b) }

namespace Rc
variable {w : RcWorld α} {p : Nat} {b : RcBox α}

theorem inner_eq (h : w.boxes[p]? = some (some b)) : inner p w = .ok b w := by
  simp [inner, h]

theorem put_eq (p : Nat) (b : RcBox α) (w : RcWorld α) : Rc.put p b w = .ok () (w.put p b) := rfl

theorem put_get (h : w.boxes[p]? = some (some b)) (b' : RcBox α) :
    (w.put p b').boxes[p]? = some (some b') := by
  simp only [RcWorld.put]
  exact List.getElem?_set_self (List.getElem?_eq_some_iff.mp h).1

theorem incStrong_eq (h : w.boxes[p]? = some (some b)) (hm : b.strong < c.usizeMax) :
    incStrong c p w = .ok b.strong (w.put p { b with strong := b.strong + 1 }) := by
  unfold incStrong
  rw [M.bind_ok (inner_eq h), M.bind_ok (a := b.strong + 1) (s' := w) (by
    unfold uadd; rw [if_pos (by omega)]; rfl), M.bind_ok (put_eq _ _ _)]
  rfl

theorem incWeak_eq (h : w.boxes[p]? = some (some b)) (hm : b.weak < c.usizeMax) :
    incWeak c p w = .ok b.weak (w.put p { b with weak := b.weak + 1 }) := by
  unfold incWeak
  rw [M.bind_ok (inner_eq h), M.bind_ok (a := b.weak + 1) (s' := w) (by
    unfold uadd; rw [if_pos (by omega)]; rfl), M.bind_ok (put_eq _ _ _)]
  rfl

theorem decStrong_eq (h : w.boxes[p]? = some (some b)) (hm : 1 ≤ b.strong) :
    decStrong c p w = .ok b.strong (w.put p { b with strong := b.strong - 1 }) := by
  unfold decStrong
  rw [M.bind_ok (inner_eq h), M.bind_ok (a := b.strong - 1) (s' := w) (by
    unfold usub; rw [if_pos hm]; rfl), M.bind_ok (put_eq _ _ _)]
  rfl

theorem decWeak_eq (h : w.boxes[p]? = some (some b)) (hm : 1 ≤ b.weak) :
    decWeak c p w = .ok b.weak (w.put p { b with weak := b.weak - 1 }) := by
  unfold decWeak
  rw [M.bind_ok (inner_eq h), M.bind_ok (a := b.weak - 1) (s' := w) (by
    unfold usub; rw [if_pos hm]; rfl), M.bind_ok (put_eq _ _ _)]
  rfl

theorem strongCount_eq (h : w.boxes[p]? = some (some b)) : strongCount p w = .ok b.strong w := by
  unfold strongCount; rw [M.bind_ok (inner_eq h)]; rfl

theorem weakCount_eq (h : w.boxes[p]? = some (some b)) : weakCount p w = .ok b.weak w := by
  unfold weakCount; rw [M.bind_ok (inner_eq h)]; rfl

theorem dropBox_eq (h : w.boxes[p]? = some (some b)) : dropBox p w = .ok () w := by
  unfold dropBox
  rw [M.bind_ok (strongCount_eq h), M.bind_ok (weakCount_eq h)]
  split <;> rfl

/-- Dropping the last `Rc` changes nothing at all. -/
theorem drop_last (h : w.boxes[p]? = some (some b)) (h1 : b.strong = 1) :
    drop c p w = .ok () w := by
  unfold drop
  rw [M.bind_ok (inner_eq h), if_pos h1]
  rw [M.bind_ok (show dropMaybeDropped b.val w = .ok () w from rfl), dropBox_eq h]

theorem drop_more (h : w.boxes[p]? = some (some b)) (h1 : 2 ≤ b.strong) :
    drop c p w = .ok () (w.put p { b with strong := b.strong - 1 }) := by
  unfold drop
  rw [M.bind_ok (inner_eq h), if_neg (by omega)]
  have e : (do let _ ← decStrong c p; pure () : M (RcWorld α) Unit) w
      = .ok () (w.put p { b with strong := b.strong - 1 }) := by
    rw [M.bind_ok (decStrong_eq h (by omega))]; rfl
  rw [M.bind_ok e, dropBox_eq (put_get h _)]

/-- In a debug build, dropping an `Rc` whose count is zero panics. -/
theorem drop_zero_debug (h : w.boxes[p]? = some (some b)) (h1 : b.strong = 0)
    (hd : c.debug = true) : drop c p w = .panic w := by
  unfold drop
  rw [M.bind_ok (inner_eq h), if_neg (by omega)]
  refine M.bind_panic (M.bind_panic ?_)
  unfold decStrong
  rw [M.bind_ok (inner_eq h)]
  refine M.bind_panic ?_
  unfold usub
  rw [if_neg (by omega), if_pos hd]
  rfl

/-- In a release build the count wraps around. -/
theorem drop_zero_release (h : w.boxes[p]? = some (some b)) (h1 : b.strong = 0)
    (hd : c.debug = false) : drop c p w = .ok () (w.put p { b with strong := c.usizeMax }) := by
  unfold drop
  rw [M.bind_ok (inner_eq h), if_neg (by omega)]
  have e : (do let _ ← decStrong c p; pure () : M (RcWorld α) Unit) w
      = .ok () (w.put p { b with strong := c.usizeMax }) := by
    unfold decStrong
    rw [M.bind_ok (a := b.strong) (s' := w.put p { b with strong := c.usizeMax })]
    · rfl
    · rw [M.bind_ok (inner_eq h), M.bind_ok (a := c.usizeMax) (s' := w) (by
        unfold usub
        rw [if_neg (by omega), hd, h1]
        simp), M.bind_ok (put_eq _ _ _)]
      rfl
  rw [M.bind_ok e, dropBox_eq (put_get h _)]

theorem asRef_eq (h : w.boxes[p]? = some (some b)) : asRef p w = .ok b.val w := by
  unfold asRef; rw [M.bind_ok (inner_eq h)]; rfl

theorem write_eq (h : w.boxes[p]? = some (some b)) (f : α → α) :
    write p f w = .ok b.val (w.put p { b with val := f b.val }) := by
  unfold write; rw [M.bind_ok (inner_eq h), M.bind_ok (put_eq _ _ _)]; rfl

theorem getMut_eq (h : w.boxes[p]? = some (some b)) :
    getMut p w = .ok (b.strong == 1 && b.weak == 0) w := by
  unfold getMut; rw [M.bind_ok (inner_eq h)]; rfl

theorem tryUnwrap_one (h : w.boxes[p]? = some (some b)) (h1 : b.strong = 1) :
    tryUnwrap c p w = .ok (some b.val) w := by
  unfold tryUnwrap
  rw [M.bind_ok (inner_eq h), if_pos h1, M.bind_ok (drop_last h h1)]
  rfl

theorem tryUnwrap_more (h : w.boxes[p]? = some (some b)) (h1 : b.strong ≠ 1) :
    tryUnwrap c p w = .ok none w := by
  unfold tryUnwrap
  rw [M.bind_ok (inner_eq h), if_neg h1]
  rfl

theorem clone_eq (h : w.boxes[p]? = some (some b)) (hm : b.strong < c.usizeMax) :
    clone c p w = .ok p (w.put p { b with strong := b.strong + 1 }) := by
  unfold clone; rw [M.bind_ok (incStrong_eq h hm)]; rfl

theorem downgrade_eq (h : w.boxes[p]? = some (some b)) (hm : b.weak < c.usizeMax) :
    downgrade c p w = .ok p (w.put p { b with weak := b.weak + 1 }) := by
  unfold downgrade; rw [M.bind_ok (incWeak_eq h hm)]; rfl

theorem weakClone_eq (h : w.boxes[p]? = some (some b)) (hm : b.weak < c.usizeMax) :
    weakClone c p w = .ok p (w.put p { b with weak := b.weak + 1 }) := by
  unfold weakClone; rw [M.bind_ok (incWeak_eq h hm)]; rfl

theorem weakDrop_eq (h : w.boxes[p]? = some (some b)) (hm : 1 ≤ b.weak) :
    weakDrop c p w = .ok () (w.put p { b with weak := b.weak - 1 }) := by
  unfold weakDrop
  rw [M.bind_ok (decWeak_eq h hm), M.bind_ok (strongCount_eq (put_get h _))]
  split <;> rfl

theorem upgrade_eq (h : w.boxes[p]? = some (some b)) (h1 : b.strong ≠ 0)
    (hm : b.strong < c.usizeMax) :
    upgrade c p w = .ok (some p) (w.put p { b with strong := b.strong + 1 }) := by
  unfold upgrade
  rw [M.bind_ok (inner_eq h), if_pos h1, M.bind_ok (incStrong_eq h hm)]
  rfl

theorem upgrade_zero (h : w.boxes[p]? = some (some b)) (h1 : b.strong = 0) :
    upgrade c p w = .ok none w := by
  unfold upgrade
  rw [M.bind_ok (inner_eq h), if_neg (by simp [h1])]
  rfl

/-- A new box. -/
def _root_.Lokky.RcWorld.add (w : RcWorld α) (b : RcBox α) : RcWorld α :=
  { w with boxes := w.boxes ++ [some b], tick := w.tick + 1 }

/-- A refused request. -/
def _root_.Lokky.RcWorld.refuse (w : RcWorld α) : RcWorld α :=
  { w with tick := w.tick + 1, refusals := w.refusals + 1 }

theorem new_eq (x : α) (w : RcWorld α) :
    new c x w = if c.grant w.tick c.size then .ok w.boxes.length (w.add ⟨1, 0, x⟩)
      else .panic w.refuse := by
  unfold new
  by_cases h : c.grant w.tick c.size = true
  · rw [M.bind_ok (a := some w.boxes.length) (s' := w.add ⟨1, 0, x⟩) (by
      unfold alloc; rw [if_pos h]; rfl), if_pos h]
    rfl
  · rw [M.bind_ok (a := none) (s' := w.refuse) (by unfold alloc; rw [if_neg h]; rfl), if_neg h]
    rfl

theorem cloneVal_eq (x : α) (w : RcWorld α) :
    cloneVal c x w = match c.clone w.calls x with
      | some y => .ok y { w with calls := w.calls + 1 }
      | none => .panic { w with calls := w.calls + 1 } := rfl

theorem lift_ok {m : M (RcWorld α) β} {a : β} {w' : RcWorld α} (h : m w = .ok a w') (q : Nat) :
    lift m (q, w) = .ok a (q, w') := by simp [lift, h]

theorem lift_panic {m : M (RcWorld α) β} {w' : RcWorld α} (h : m w = .panic w') (q : Nat) :
    lift m (q, w) = .panic (q, w') := by simp [lift, h]

/-- The assignment when the old handle is dropped without panic. -/
theorem assign_ok {x : α} {w' : RcWorld α} (hg : c.grant w.tick c.size = true)
    (hd : drop c p (w.add ⟨1, 0, x⟩) = .ok () w') :
    assign c x (p, w) = .ok () (w.boxes.length, w') := by
  unfold assign
  rw [M.bind_ok (lift_ok (by rw [new_eq, if_pos hg]) p)]
  simp only [M.andAlways, M.seq_eq_bind]
  rw [M.bind_ok (a := ()) (s' := (p, w'))]
  · rfl
  · rw [M.onUnwind_ok]
    rw [M.bind_ok (M.get_apply _)]
    exact lift_ok hd p

/-- The assignment when it panics. -/
theorem assign_boom {x : α} {w' : RcWorld α} (hg : c.grant w.tick c.size = true)
    (hd : drop c p (w.add ⟨1, 0, x⟩) = .panic w') :
    assign c x (p, w) = .panic (w.boxes.length, w') := by
  unfold assign
  rw [M.bind_ok (lift_ok (by rw [new_eq, if_pos hg]) p)]
  simp only [M.andAlways, M.seq_eq_bind]
  refine M.bind_panic ?_
  have e : (do
      let s ← M.get
      lift (drop c s.1) : M (Nat × RcWorld α) Unit) (p, w.add ⟨1, 0, x⟩) = .panic (p, w') := by
    rw [M.bind_ok (M.get_apply _)]
    exact lift_panic hd p
  simp only [M.onUnwind, e]
  rfl

theorem assign_refused {x : α} (hg : ¬ c.grant w.tick c.size = true) :
    assign c x (p, w) = .panic (p, w.refuse) := by
  unfold assign
  exact M.bind_panic (lift_panic (by rw [new_eq, if_neg hg]) p)

end Rc
end Lokky
