import Verif.Proofs.Rc

/-!
# The states client programs of `Rc` reach
-/

namespace Lokky
open Spec
variable {α β γ σ : Type} {c : Cfg α}

/-! ## Any calls -/

/-- What code that does not touch the weak counts leaves alone. -/
structure RcKeep (w w' : RcWorld α) : Prop where
  len : w.boxes.length ≤ w'.boxes.length
  old : ∀ (p : Nat) (b : RcBox α), w.boxes[p]? = some (some b) →
    ∃ b' : RcBox α, w'.boxes[p]? = some (some b') ∧ b'.weak = b.weak
  fresh : ∀ p : Nat, w.boxes.length ≤ p → p < w'.boxes.length →
    ∃ b' : RcBox α, w'.boxes[p]? = some (some b') ∧ b'.weak = 0
  dropped : w'.dropped = w.dropped

namespace RcKeep
variable {w w' w'' : RcWorld α} {p : Nat} {b : RcBox α}

theorem refl (w : RcWorld α) : RcKeep w w :=
  ⟨Nat.le_refl _, fun _ b h => ⟨b, h, rfl⟩, fun _ h h' => absurd h' (by omega), rfl⟩

theorem trans (h : RcKeep w w') (h' : RcKeep w' w'') : RcKeep w w'' := by
  refine ⟨Nat.le_trans h.len h'.len, fun p b hb => ?_, fun p hp hp' => ?_,
    h'.dropped.trans h.dropped⟩
  · obtain ⟨b', e, k⟩ := h.old p b hb
    obtain ⟨b'', e', k'⟩ := h'.old p b' e
    exact ⟨b'', e', k'.trans k⟩
  · by_cases hq : p < w'.boxes.length
    · obtain ⟨b', e, k⟩ := h.fresh p hp hq
      obtain ⟨b'', e', k'⟩ := h'.old p b' e
      exact ⟨b'', e', k'.trans k⟩
    · exact h'.fresh p (by omega) hp'

theorem put (hb : w.boxes[p]? = some (some b)) (b' : RcBox α) (hw : b'.weak = b.weak) :
    RcKeep w (w.put p b') := by
  refine ⟨by simp [RcWorld.put], fun q x hx => ?_, fun q h h' => ?_, rfl⟩
  · by_cases e : q = p
    · subst e
      rw [hb] at hx
      cases hx
      exact ⟨b', Rc.put_get hb b', hw⟩
    · refine ⟨x, ?_, rfl⟩
      simp only [RcWorld.put]
      rw [List.getElem?_set_ne (Ne.symm e)]
      exact hx
  · simp only [RcWorld.put, List.length_set] at h'
    omega

theorem add (w : RcWorld α) (b : RcBox α) (hb : b.weak = 0) : RcKeep w (w.add b) := by
  refine ⟨by simp [RcWorld.add], fun q x hx => ⟨x, ?_, rfl⟩, fun q h h' => ⟨b, ?_, hb⟩, rfl⟩
  · simp only [RcWorld.add]
    rw [List.getElem?_append_left (List.getElem?_eq_some_iff.mp hx).1]
    exact hx
  · simp only [RcWorld.add, List.length_append, List.length_singleton] at h'
    have : q = w.boxes.length := by omega
    subst this
    simp [RcWorld.add]

theorem refuse (w : RcWorld α) : RcKeep w w.refuse :=
  ⟨Nat.le_refl _, fun _ b h => ⟨b, h, rfl⟩, fun _ h h' => absurd h' (by simp [RcWorld.refuse]; omega),
    rfl⟩

theorem call (w : RcWorld α) : RcKeep w { w with calls := w.calls + 1 } :=
  ⟨Nat.le_refl _, fun _ b h => ⟨b, h, rfl⟩, fun _ h h' => absurd h' (by simp; omega), rfl⟩

end RcKeep

namespace Rc
variable {w : RcWorld α} {p : Nat} {b : RcBox α}

theorem incStrong_keep (h : w.boxes[p]? = some (some b)) :
    Ends (incStrong c p w) (fun _ w' => RcKeep w w') (RcKeep w) := by
  unfold incStrong
  refine Ends.bind (Ends.of_ok (inner_eq h) (Q := fun x w' => x = b ∧ w' = w) ⟨rfl, rfl⟩) ?_
  rintro x w' ⟨rfl, rfl⟩
  refine Ends.bind ((uadd_ends _ _ _).mono (fun _ _ e => e) (fun _ e => e ▸ RcKeep.refl _)) ?_
  rintro n w' rfl
  exact RcKeep.put h _ rfl

theorem decStrong_keep (h : w.boxes[p]? = some (some b)) :
    Ends (decStrong c p w) (fun _ w' => RcKeep w w') (RcKeep w) := by
  unfold decStrong
  refine Ends.bind (Ends.of_ok (inner_eq h) (Q := fun x w' => x = b ∧ w' = w) ⟨rfl, rfl⟩) ?_
  rintro x w' ⟨rfl, rfl⟩
  refine Ends.bind ((usub_ends _ _ _).mono (fun _ _ e => e) (fun _ e => e ▸ RcKeep.refl _)) ?_
  rintro n w' rfl
  exact RcKeep.put h _ rfl

theorem dropBox_keep {w₀ : RcWorld α} (k : RcKeep w₀ w) (h : w.boxes[p]? = some (some b)) :
    Ends (dropBox p w) (fun _ w' => RcKeep w₀ w') (RcKeep w₀) :=
  Ends.of_ok (dropBox_eq h) k

theorem drop_keep (h : w.boxes[p]? = some (some b)) :
    Ends (drop c p w) (fun _ w' => RcKeep w w') (RcKeep w) := by
  unfold drop
  rw [M.bind_ok (inner_eq h)]
  have e : Ends ((if b.strong = 1 then dropMaybeDropped b.val
      else do
        let _ ← decStrong c p
        pure () : M (RcWorld α) Unit) w) (fun _ w' => RcKeep w w') (RcKeep w) := by
    split
    · exact RcKeep.refl w
    · exact Ends.bind (decStrong_keep h) fun _ _ k => k
  refine Ends.bind e fun _ w' k => ?_
  obtain ⟨b', h', -⟩ := k.old p b h
  exact dropBox_keep k h'

theorem new_keep (x : α) (w : RcWorld α) :
    Ends (new c x w) (fun p w' => RcKeep w w' ∧ p < w'.boxes.length) (RcKeep w) := by
  rw [new_eq]
  split
  · exact ⟨RcKeep.add _ _ rfl, by simp [RcWorld.add]⟩
  · exact RcKeep.refuse w

theorem lift_ends {m : M (RcWorld α) β} {Q : β → RcWorld α → Prop} {E : RcWorld α → Prop}
    (h : Ends (m w) Q E) (q : Nat) :
    Ends (lift m (q, w)) (fun a s => s.1 = q ∧ Q a s.2) (fun s => s.1 = q ∧ E s.2) := by
  unfold lift
  cases hr : m w with
  | ok a s => rw [hr] at h; exact ⟨rfl, h⟩
  | panic s => rw [hr] at h; exact ⟨rfl, h⟩
  | abort => rw [hr] at h; exact h
  | ub u => rw [hr] at h; exact h

/-- What is left of a memory and a handle by `make_mut`. -/
def KeepAt (w : RcWorld α) (s : Nat × RcWorld α) : Prop := RcKeep w s.2 ∧ s.1 < s.2.boxes.length

theorem assign_keep {w₀ : RcWorld α} (k : RcKeep w₀ w) (h : w.boxes[p]? = some (some b)) (x : α) :
    Ends (assign c x (p, w)) (fun _ s => KeepAt w₀ s) (KeepAt w₀) := by
  have hp := (List.getElem?_eq_some_iff.mp h).1
  by_cases hg : c.grant w.tick c.size = true
  · have ka : RcKeep w (w.add ⟨1, 0, x⟩) := RcKeep.add _ _ rfl
    obtain ⟨b', h', -⟩ := ka.old p b h
    have hd := drop_keep (c := c) h'
    have hl : w.boxes.length < (w.add ⟨1, 0, x⟩).boxes.length := by simp [RcWorld.add]
    cases hr : drop c p (w.add ⟨1, 0, x⟩) with
    | ok a w' =>
      rw [hr] at hd
      have kd : RcKeep (w.add ⟨1, 0, x⟩) w' := hd
      exact Ends.of_ok (assign_ok hg hr) ⟨k.trans (ka.trans kd), Nat.lt_of_lt_of_le hl kd.len⟩
    | panic w' =>
      rw [hr] at hd
      have kd : RcKeep (w.add ⟨1, 0, x⟩) w' := hd
      exact Ends.of_panic (assign_boom hg hr) ⟨k.trans (ka.trans kd), Nat.lt_of_lt_of_le hl kd.len⟩
    | abort => rw [hr] at hd; exact hd.elim
    | ub u => rw [hr] at hd; exact hd.elim
  · exact Ends.of_panic (assign_refused hg) ⟨k.trans (RcKeep.refuse w), hp⟩

theorem makeMut_keep (h : w.boxes[p]? = some (some b)) :
    Ends (makeMut c (p, w)) (fun _ s => KeepAt w s) (KeepAt w) := by
  have hp := (List.getElem?_eq_some_iff.mp h).1
  unfold makeMut
  rw [M.bind_ok (M.get_apply _), M.bind_ok (lift_ok (inner_eq h) p)]
  split
  · split
    · have e : setZeroStrong p w = .ok () (w.put p { b with strong := 0 }) := by
        unfold setZeroStrong; rw [M.bind_ok (inner_eq h)]; rfl
      rw [M.bind_ok (lift_ok e p)]
      exact assign_keep (RcKeep.put h { b with strong := 0 } rfl) (put_get h _) _
    · exact ⟨RcKeep.refl w, hp⟩
  · have e := cloneVal_eq (c := c) b.val w
    cases hc : c.clone w.calls b.val with
    | some y =>
      rw [hc] at e
      rw [M.bind_ok (lift_ok e p)]
      exact assign_keep (RcKeep.call w) (w := { w with calls := w.calls + 1 }) h _
    | none =>
      rw [hc] at e
      exact Ends.of_panic (M.bind_panic (lift_panic e p)) ⟨RcKeep.call w, hp⟩

theorem upgrade_keep (h : w.boxes[p]? = some (some b)) :
    Ends (upgrade c p w) (fun q w' => RcKeep w w' ∧ ∀ x, q = some x → x = p) (RcKeep w) := by
  unfold upgrade
  rw [M.bind_ok (inner_eq h)]
  split
  · refine Ends.bind (incStrong_keep h) fun _ w' k => ?_
    exact ⟨k, fun x e => by cases e; rfl⟩
  · exact ⟨RcKeep.refl w, fun x e => by cases e⟩

theorem tryUnwrap_keep (h : w.boxes[p]? = some (some b)) :
    Ends (tryUnwrap c p w) (fun _ w' => RcKeep w w') (RcKeep w) := by
  unfold tryUnwrap
  rw [M.bind_ok (inner_eq h)]
  split
  · exact Ends.bind (drop_keep h) fun _ w' k => k
  · exact RcKeep.refl w

end Rc

/-- Holds in every state a client program can reach: every box ever made is there, its weak count is
the number of `Weak` handles, nothing was dropped. -/
structure RcInv (P : RcPool α) : Prop where
  box : ∀ p, p < P.w.boxes.length →
    ∃ b : RcBox α, P.w.boxes[p]? = some (some b) ∧ b.weak = P.hands.weaks p
  beyond : ∀ p, P.w.boxes.length ≤ p → P.hands.rcs p = 0 ∧ P.hands.weaks p = 0
  dropped : P.w.dropped = []

namespace RcInv
variable {P : RcPool α}

theorem start : RcInv (RcPool.start : RcPool α) :=
  ⟨fun _ h => absurd h (by simp [RcPool.start]), fun _ _ => ⟨rfl, rfl⟩, rfl⟩

theorem rc_lt (I : RcInv P) {h p : Nat} (hk : P.hands[h]? = some (some (.rc p))) :
    p < P.w.boxes.length := by
  by_cases e : p < P.w.boxes.length
  · exact e
  · have := Hands.rcs_pos hk
    have := (I.beyond p (by omega)).1
    omega

theorem weak_lt (I : RcInv P) {h p : Nat} (hk : P.hands[h]? = some (some (.weak (some p)))) :
    p < P.w.boxes.length := by
  by_cases e : p < P.w.boxes.length
  · exact e
  · have := Hands.weaks_pos hk
    have := (I.beyond p (by omega)).2
    omega

theorem rc_box (I : RcInv P) {h p : Nat} (hk : P.hands[h]? = some (some (.rc p))) :
    ∃ b : RcBox α, P.w.boxes[p]? = some (some b) ∧ b.weak = P.hands.weaks p := I.box p (I.rc_lt hk)

theorem weak_box (I : RcInv P) {h p : Nat} (hk : P.hands[h]? = some (some (.weak (some p)))) :
    ∃ b : RcBox α, P.w.boxes[p]? = some (some b) ∧ b.weak = P.hands.weaks p := I.box p (I.weak_lt hk)

theorem keep (I : RcInv P) {w' : RcWorld α} {H' : Hands} (k : RcKeep P.w w')
    (hw : ∀ p, H'.weaks p = P.hands.weaks p)
    (hr : ∀ p, w'.boxes.length ≤ p → H'.rcs p ≤ P.hands.rcs p) : RcInv ⟨H', w'⟩ := by
  refine ⟨fun p hp => ?_, fun p hp => ?_, k.dropped.trans I.dropped⟩
  · rw [hw]
    by_cases hq : p < P.w.boxes.length
    · obtain ⟨b, e, x⟩ := I.box p hq
      obtain ⟨b', e', x'⟩ := k.old p b e
      exact ⟨b', e', x'.trans x⟩
    · obtain ⟨b', e', x'⟩ := k.fresh p (by omega) hp
      exact ⟨b', e', x'.trans (I.beyond p (by omega)).2.symm⟩
  · have hp' : w'.boxes.length ≤ p := hp
    have h1 := I.beyond p (Nat.le_trans k.len hp')
    have h2 := hr p hp'
    exact ⟨by show H'.rcs p = 0; omega, by rw [hw]; exact h1.2⟩

/-- The weak count of one box changes along with the handles. -/
theorem weak (I : RcInv P) {p : Nat} {b : RcBox α} (hb : P.w.boxes[p]? = some (some b))
    {H' : Hands} {n : Nat} (hn : n = H'.weaks p)
    (hw : ∀ q, q ≠ p → H'.weaks q = P.hands.weaks q)
    (hr : ∀ q, H'.rcs q = P.hands.rcs q) : RcInv ⟨H', P.w.put p { b with weak := n }⟩ := by
  have hp := (List.getElem?_eq_some_iff.mp hb).1
  refine ⟨fun q hq => ?_, fun q hq => ?_, I.dropped⟩
  · by_cases e : q = p
    · subst e
      exact ⟨_, Rc.put_get hb _, hn⟩
    · simp only [RcWorld.put, List.length_set] at hq ⊢
      rw [List.getElem?_set_ne (Ne.symm e), hw q e]
      exact I.box q hq
  · simp only [RcWorld.put, List.length_set] at hq
    have e : q ≠ p := by omega
    show H'.rcs q = 0 ∧ H'.weaks q = 0
    rw [hr, hw q e]
    exact I.beyond q hq

end RcInv

/-- What a call is to establish. -/
abbrev RcNext (P P' : RcPool α) : Prop := RcInv P' ∧ P'.hands.length ≤ P.hands.length + 1

namespace RcPool
variable {P : RcPool α}

theorem on_ends {m : M (RcWorld α) β} {Q : β → RcWorld α → Prop} {E : RcWorld α → Prop}
    {H : β → Hands} {H' : Hands} {out : β → RcOut α} {Q' : RcOut α → RcPool α → Prop}
    {E' : RcPool α → Prop} (h : Ends (m P.w) Q E) (hQ : ∀ a w, Q a w → Q' (out a) ⟨H a, w⟩)
    (hE : ∀ w, E w → E' ⟨H', w⟩) : Ends (on m H H' out P) Q' E' := by
  unfold on
  cases hr : m P.w with
  | ok a s => rw [hr] at h; exact hQ a s h
  | panic s => rw [hr] at h; exact hE s h
  | abort => rw [hr] at h; exact h
  | ub u => rw [hr] at h; exact h

theorem look_ends {m : M (RcWorld α) β} {Q : β → RcWorld α → Prop} {E : RcWorld α → Prop}
    {out : β → RcOut α} {Q' : RcOut α → RcPool α → Prop}
    {E' : RcPool α → Prop} (h : Ends (m P.w) Q E) (hQ : ∀ a w, Q a w → Q' (out a) ⟨P.hands, w⟩)
    (hE : ∀ w, E w → E' ⟨P.hands, w⟩) : Ends (look m out P) Q' E' := by
  unfold look
  exact on_ends h hQ hE

end RcPool

theorem RcInv.same {P : RcPool α} (I : RcInv P) : RcNext P P := ⟨I, by omega⟩

/-- Code that leaves the weak counts alone. -/
theorem RcInv.run {P : RcPool α} (I : RcInv P) {m : M (RcWorld α) β} {H : β → Hands} {H' : Hands}
    {out : β → RcOut α} {Q : β → Prop}
    (h : Ends (m P.w) (fun a w => RcKeep P.w w ∧ Q a) (RcKeep P.w))
    (hH : ∀ a, Q a → (∀ p, (H a).weaks p = P.hands.weaks p) ∧
      (∀ p, P.w.boxes.length ≤ p → (H a).rcs p ≤ P.hands.rcs p) ∧
      (H a).length ≤ P.hands.length + 1)
    (hH' : (∀ p, H'.weaks p = P.hands.weaks p) ∧ (∀ p, H'.rcs p ≤ P.hands.rcs p) ∧
      H'.length ≤ P.hands.length + 1) :
    Ends (RcPool.on m H H' out P) (fun _ => RcNext P) (RcNext P) := by
  refine RcPool.on_ends h ?_ ?_
  · rintro a w ⟨k, q⟩
    obtain ⟨h1, h2, h3⟩ := hH a q
    exact ⟨I.keep k h1 fun p hp => h2 p (Nat.le_trans k.len hp), h3⟩
  · intro w k
    exact ⟨I.keep k hH'.1 fun p _ => hH'.2.1 p, hH'.2.2⟩

theorem RcInv.hands_push {H : Hands} {w : RcWorld α} {p : Nat} (hp : p < w.boxes.length) :
    (∀ q, Hands.weaks (H ++ [some (.rc p)]) q = H.weaks q) ∧
    (∀ q, w.boxes.length ≤ q → Hands.rcs (H ++ [some (.rc p)]) q ≤ H.rcs q) ∧
    List.length (H ++ [some (Hand.rc p)]) ≤ H.length + 1 := by
  refine ⟨fun q => by simp [Hands.weaks_push], fun q hq => ?_, by simp⟩
  rw [Hands.rcs_push, if_neg]
  · omega
  · intro e; cases e; omega

theorem RcInv.hands_drop {H : Hands} {h p : Nat} (hk : H[h]? = some (some (.rc p))) :
    (∀ q, Hands.weaks (H.set h none) q = H.weaks q) ∧
    (∀ q, Hands.rcs (H.set h none) q ≤ H.rcs q) ∧ (H.set h none).length ≤ H.length + 1 := by
  refine ⟨fun q => ?_, fun q => ?_, by simp⟩
  · have := Hands.weaks_set H hk none q
    simpa using this
  · have := Hands.rcs_set H hk none q
    simp at this
    omega

theorem RcInv.nullPush {P : RcPool α} (I : RcInv P) :
    RcNext P ⟨P.hands ++ [some (.weak none)], P.w⟩ := by
  refine ⟨I.keep (RcKeep.refl _) (fun q => by simp [Hands.weaks_push]) (fun q _ => ?_), by simp⟩
  simp [Hands.rcs_push]

theorem RcInv.weakPush {P : RcPool α} (I : RcInv P) {p : Nat} {b : RcBox α}
    (hb : P.w.boxes[p]? = some (some b)) (hw : b.weak = P.hands.weaks p) :
    RcNext P ⟨P.hands ++ [some (.weak (some p))], P.w.put p { b with weak := b.weak + 1 }⟩ := by
  refine ⟨I.weak hb ?_ ?_ ?_, by simp⟩
  · rw [Hands.weaks_push, hw]; simp
  · intro q hq
    rw [Hands.weaks_push, if_neg]
    · rfl
    · intro e; cases e; exact hq rfl
  · intro q
    simp [Hands.rcs_push]

/-- Every call keeps the invariant, if there are not too many handles. -/
theorem RcInv.step {P : RcPool α} (I : RcInv P) (hm : P.hands.length < c.usizeMax) {cmd : RcCmd α}
    (hc : cmd.Callable P.hands) : Ends (runRc c cmd P) (fun _ => RcNext P) (RcNext P) := by
  have wlt : ∀ p, P.hands.weaks p < c.usizeMax := fun p => Nat.lt_of_le_of_lt (Hands.weaks_le _ _) hm
  have stay : (∀ p, P.hands.weaks p = P.hands.weaks p) ∧ (∀ p, P.hands.rcs p ≤ P.hands.rcs p) ∧
      P.hands.length ≤ P.hands.length + 1 := ⟨fun _ => rfl, fun _ => Nat.le_refl _, by omega⟩
  cases cmd with
  | new x =>
    refine RcPool.on_ends (Rc.new_keep x P.w) ?_ ?_
    · rintro p w ⟨k, hp⟩
      refine ⟨I.keep k (fun q => by simp [Hands.weaks_push]) (fun q hq => ?_), by simp⟩
      simp only [Function.comp]
      rw [Hands.rcs_push, if_neg]
      · omega
      · intro e; cases e; omega
    · intro w k
      exact ⟨I.keep k (fun _ => rfl) fun _ _ => Nat.le_refl _, by simp⟩
  | weakNew => exact I.nullPush
  | clone h =>
    obtain ⟨k, hk⟩ := hc
    simp only [runRc, hk]
    cases k with
    | rc p =>
      obtain ⟨b, hb, -⟩ := I.rc_box hk
      refine I.run (Q := fun a => a = p) ?_ (fun a e => ?_) stay
      · unfold Rc.clone
        exact Ends.bind (Rc.incStrong_keep hb) fun _ w' k => ⟨k, rfl⟩
      · subst e; exact RcInv.hands_push (I.rc_lt hk)
    | weak k => cases k with
      | none => exact I.nullPush
      | some p =>
        obtain ⟨b, hb, hw⟩ := I.weak_box hk
        refine RcPool.on_ends (Ends.of_ok (Rc.weakClone_eq hb (by rw [hw]; exact wlt p))
          (Q := fun a w => a = p ∧ w = P.w.put p { b with weak := b.weak + 1 }) ⟨rfl, rfl⟩)
          ?_ (E := fun _ => False) fun _ h => h.elim
        rintro a w ⟨rfl, rfl⟩
        exact I.weakPush hb hw
  | downgrade h =>
    obtain ⟨p, hk⟩ := hc
    simp only [runRc, hk]
    obtain ⟨b, hb, hw⟩ := I.rc_box hk
    refine RcPool.on_ends (Ends.of_ok (Rc.downgrade_eq hb (by rw [hw]; exact wlt p))
      (Q := fun a w => a = p ∧ w = P.w.put p { b with weak := b.weak + 1 }) ⟨rfl, rfl⟩)
      ?_ (E := fun _ => False) fun _ h => h.elim
    rintro a w ⟨rfl, rfl⟩
    exact I.weakPush hb hw
  | upgrade h =>
    obtain ⟨p, hk⟩ := hc
    simp only [runRc, hk]
    cases p with
    | none => exact I.same
    | some p =>
      obtain ⟨b, hb, -⟩ := I.weak_box hk
      refine I.run (Rc.upgrade_keep hb) (fun a e => ?_) stay
      cases a with
      | none => exact ⟨fun _ => rfl, fun _ _ => Nat.le_refl _, by simp⟩
      | some x =>
        rw [e x rfl]
        exact RcInv.hands_push (I.weak_lt hk)
  | drop h =>
    obtain ⟨k, hk⟩ := hc
    simp only [runRc, hk]
    cases k with
    | rc p =>
      obtain ⟨b, hb, -⟩ := I.rc_box hk
      have hd := RcInv.hands_drop hk
      exact I.run (Q := fun _ => True) ((Rc.drop_keep hb).mono (fun _ _ k => ⟨k, trivial⟩) fun _ k => k)
        (fun a _ => ⟨hd.1, fun q _ => hd.2.1 q, hd.2.2⟩) hd
    | weak k => cases k with
      | none =>
        refine ⟨I.keep (RcKeep.refl _) (fun q => ?_) (fun q _ => ?_), by simp⟩
        · simpa using Hands.weaks_set P.hands hk none q
        · have := Hands.rcs_set P.hands hk none q
          simp at this
          omega
      | some p =>
        obtain ⟨b, hb, hw⟩ := I.weak_box hk
        refine RcPool.on_ends (Ends.of_ok (Rc.weakDrop_eq hb (by rw [hw]; exact Hands.weaks_pos hk))
          (Q := fun _ w => w = P.w.put p { b with weak := b.weak - 1 }) rfl)
          ?_ (E := fun _ => False) fun _ h => h.elim
        rintro a w rfl
        refine ⟨I.weak hb ?_ ?_ ?_, by simp⟩
        · have := Hands.weaks_set P.hands hk none p
          simp at this
          omega
        · intro q hq
          have := Hands.weaks_set P.hands hk none q
          simpa [Ne.symm hq] using this
        · intro q
          simpa using Hands.rcs_set P.hands hk none q
  | read h =>
    obtain ⟨p, hk⟩ := hc
    simp only [runRc, hk]
    obtain ⟨b, hb, -⟩ := I.rc_box hk
    exact RcPool.look_ends (Ends.of_ok (Rc.asRef_eq hb) (Q := fun _ w => w = P.w) rfl)
      (fun _ _ e => e ▸ I.same) (E := fun _ => False) fun _ h => h.elim
  | strongCount h =>
    obtain ⟨k, hk⟩ := hc
    simp only [runRc, hk]
    cases k with
    | rc p =>
      obtain ⟨b, hb, -⟩ := I.rc_box hk
      exact RcPool.look_ends (Ends.of_ok (Rc.strongCount_eq hb) (Q := fun _ w => w = P.w) rfl)
        (fun _ _ e => e ▸ I.same) (E := fun _ => False) fun _ h => h.elim
    | weak k => cases k with
      | none => exact I.same
      | some p =>
        obtain ⟨b, hb, -⟩ := I.weak_box hk
        exact RcPool.look_ends (Ends.of_ok (Rc.strongCount_eq hb) (Q := fun _ w => w = P.w) rfl)
          (fun _ _ e => e ▸ I.same) (E := fun _ => False) fun _ h => h.elim
  | weakCount h =>
    obtain ⟨k, hk⟩ := hc
    simp only [runRc, hk]
    cases k with
    | rc p =>
      obtain ⟨b, hb, -⟩ := I.rc_box hk
      exact RcPool.look_ends (Ends.of_ok (Rc.weakCount_eq hb) (Q := fun _ w => w = P.w) rfl)
        (fun _ _ e => e ▸ I.same) (E := fun _ => False) fun _ h => h.elim
    | weak k => cases k with
      | none => exact I.same
      | some p =>
        obtain ⟨b, hb, -⟩ := I.weak_box hk
        exact RcPool.look_ends (Ends.of_ok (Rc.weakCount_eq hb) (Q := fun _ w => w = P.w) rfl)
          (fun _ _ e => e ▸ I.same) (E := fun _ => False) fun _ h => h.elim
  | setMut h x =>
    obtain ⟨p, hk⟩ := hc
    simp only [runRc, hk]
    obtain ⟨b, hb, -⟩ := I.rc_box hk
    refine RcPool.look_ends (Q := fun _ w => RcKeep P.w w) (E := fun _ => False) ?_
      (fun _ w k => ⟨I.keep k (fun _ => rfl) fun _ _ => Nat.le_refl _, by simp⟩) fun _ h => h.elim
    rw [M.bind_ok (Rc.getMut_eq hb)]
    split
    · rw [M.bind_ok (Rc.write_eq hb _)]
      exact RcKeep.put hb _ rfl
    · exact RcKeep.refl _
  | makeMut h f =>
    obtain ⟨p, hk⟩ := hc
    simp only [runRc, hk]
    obtain ⟨b, hb, -⟩ := I.rc_box hk
    have e := Rc.makeMut_keep (c := c) hb
    have fin : ∀ q w, Rc.KeepAt P.w (q, w) → RcNext P ⟨P.hands.set h (some (.rc q)), w⟩ := by
      rintro q w ⟨k, hq⟩
      refine ⟨I.keep k (fun x => ?_) (fun x hx => ?_), by simp⟩
      · simpa using Hands.weaks_set P.hands hk (some (.rc q)) x
      · have := Hands.rcs_set P.hands hk (some (.rc q)) x
        have hq' : q < w.boxes.length := hq
        rw [if_neg (show ¬ some (Hand.rc q) = some (.rc x) by intro e; cases e; omega)] at this
        omega
    unfold RcPool.makeMut
    cases hr : Rc.makeMut c (p, P.w) with
    | ok a s =>
      rw [hr] at e
      obtain ⟨q, w⟩ := s
      obtain ⟨k, hq⟩ : Rc.KeepAt P.w (q, w) := e
      have hi := (fin q w ⟨k, hq⟩).1
      obtain ⟨b', hb', -⟩ := hi.box q hq
      refine RcPool.on_ends (Ends.of_ok (Rc.write_eq hb' f) (Q := fun _ w' => RcKeep P.w w' ∧ q < w'.boxes.length)
        ⟨k.trans (RcKeep.put hb' _ rfl), by simpa [RcWorld.put] using hq⟩) (fun a w' k' => ?_) (E := fun _ => False) fun _ h => h.elim
      exact fin q w' k'
    | panic s =>
      rw [hr] at e
      exact fin _ _ e
    | abort => rw [hr] at e; exact e.elim
    | ub u => rw [hr] at e; exact e.elim
  | tryUnwrap h =>
    obtain ⟨p, hk⟩ := hc
    simp only [runRc, hk]
    obtain ⟨b, hb, -⟩ := I.rc_box hk
    have hd := RcInv.hands_drop hk
    refine I.run (Q := fun _ => True)
      ((Rc.tryUnwrap_keep hb).mono (fun _ _ k => ⟨k, trivial⟩) fun _ k => k) (fun a _ => ?_) hd
    cases a with
    | none => exact ⟨stay.1, fun q _ => stay.2.1 q, stay.2.2⟩
    | some x => exact ⟨hd.1, fun q _ => hd.2.1 q, hd.2.2⟩
  | ptrEq h h' =>
    rcases hc with ⟨p, q, e, e'⟩ | ⟨p, q, e, e'⟩ <;> simp only [runRc, e, e'] <;> exact I.same

/-! ## Permitted calls -/

/-- A box agrees with an object: it is in use, or nothing ever referred to it. -/
def RcFit (H : Hands) (p : Nat) (o : RcObj α) (b : RcBox α) : Prop :=
  b.val = o.val ∧ b.weak = H.weaks p ∧
  ((b.strong = H.rcs p + (if o.orphan then 1 else 0) ∧ (o.orphan = true ∨ 0 < H.rcs p)) ∨
    (H.rcs p = 0 ∧ H.weaks p = 0))

/-- Handles and memory agree with handles and objects. -/
structure RcSim (P : RcPool α) (S : RcState α) : Prop where
  hands : P.hands = S.hands
  len : P.w.boxes.length = S.objs.length
  box : ∀ (p : Nat) (o : RcObj α), S.objs[p]? = some o →
    ∃ b, P.w.boxes[p]? = some (some b) ∧ RcFit P.hands p o b
  beyond : ∀ p, P.w.boxes.length ≤ p → P.hands.rcs p = 0 ∧ P.hands.weaks p = 0

namespace RcSim
variable {P : RcPool α} {S : RcState α}

theorem start : RcSim (RcPool.start : RcPool α) ⟨[], []⟩ :=
  ⟨rfl, rfl, fun p o h => by simp at h, fun _ _ => ⟨rfl, rfl⟩⟩

/-- One object changes. -/
theorem update (I : RcSim P S) {p : Nat} {b' : RcBox α} {o' : RcObj α} {P' : RcPool α}
    {S' : RcState α} (hp : p < P.w.boxes.length) (hS : P'.hands = S'.hands)
    (hw : P'.w.boxes = P.w.boxes.set p (some b')) (ho : S'.objs = S.objs.set p o')
    (hq : ∀ q, q ≠ p → P'.hands.rcs q = P.hands.rcs q ∧ P'.hands.weaks q = P.hands.weaks q)
    (hf : RcFit P'.hands p o' b') : RcSim P' S' := by
  refine ⟨hS, by rw [hw, ho, List.length_set, List.length_set, I.len], fun q o hqo => ?_,
    fun q hl => ?_⟩
  · by_cases e : q = p
    · subst e
      rw [ho, List.getElem?_set_self (by rw [← I.len]; exact hp)] at hqo
      cases hqo
      exact ⟨b', by rw [hw, List.getElem?_set_self hp], hf⟩
    · rw [ho, List.getElem?_set_ne (Ne.symm e)] at hqo
      obtain ⟨b, hb, hf'⟩ := I.box q o hqo
      refine ⟨b, by rw [hw, List.getElem?_set_ne (Ne.symm e)]; exact hb, ?_⟩
      unfold RcFit
      rw [(hq q e).1, (hq q e).2]
      exact hf'
  · rw [hw, List.length_set] at hl
    have e : q ≠ p := by omega
    rw [(hq q e).1, (hq q e).2]
    exact I.beyond q hl

/-- A new object without handles. -/
theorem add (I : RcSim P S) {b : RcBox α} {o : RcObj α} {w' : RcWorld α} (hv : b.val = o.val)
    (hk : b.weak = 0) (hw : w'.boxes = P.w.boxes ++ [some b]) :
    RcSim ⟨P.hands, w'⟩ ⟨S.hands, S.objs ++ [o]⟩ := by
  refine ⟨I.hands, by simp [hw, I.len], fun q x hqo => ?_, fun q hl => I.beyond q ?_⟩
  · have hlt : q < (S.objs ++ [o]).length := (List.getElem?_eq_some_iff.mp hqo).1
    simp at hlt
    by_cases e : q < S.objs.length
    · rw [List.getElem?_append_left e] at hqo
      obtain ⟨b', hb, hf⟩ := I.box q x hqo
      refine ⟨b', ?_, hf⟩
      simp only [hw]
      rw [List.getElem?_append_left (by rw [I.len]; exact e)]
      exact hb
    · have eq : q = P.w.boxes.length := by rw [I.len]; omega
      have hx : x = o := by
        rw [eq, I.len] at hqo
        simpa using hqo.symm
      subst hx
      refine ⟨b, by simp [hw, eq], hv, ?_, Or.inr ?_⟩
      · rw [hk]; exact (I.beyond q (by omega)).2.symm
      · exact I.beyond q (by omega)
  · simp [hw] at hl; omega

/-- Only the handles that refer to nothing, or what no handle refers to, change. -/
theorem still (I : RcSim P S) {P' : RcPool α} {S' : RcState α} (hS : P'.hands = S'.hands)
    (hw : P'.w.boxes = P.w.boxes) (ho : S'.objs = S.objs)
    (hq : ∀ q, P'.hands.rcs q = P.hands.rcs q ∧ P'.hands.weaks q = P.hands.weaks q) :
    RcSim P' S' := by
  refine ⟨hS, by rw [hw, ho, I.len], fun q o hqo => ?_, fun q hl => ?_⟩
  · rw [ho] at hqo
    obtain ⟨b, hb, hf⟩ := I.box q o hqo
    refine ⟨b, by rw [hw]; exact hb, ?_⟩
    unfold RcFit
    rw [(hq q).1, (hq q).2]
    exact hf
  · rw [hw] at hl
    rw [(hq q).1, (hq q).2]
    exact I.beyond q hl

theorem lt_of_rcs (I : RcSim P S) {p : Nat} (h : 1 ≤ P.hands.rcs p ∨ 1 ≤ P.hands.weaks p) :
    p < P.w.boxes.length := by
  by_cases e : p < P.w.boxes.length
  · exact e
  · have := I.beyond p (by omega)
    omega

/-- The box and object of a handle. -/
theorem at' (I : RcSim P S) {p : Nat} (h : 1 ≤ P.hands.rcs p ∨ 1 ≤ P.hands.weaks p) :
    ∃ (o : RcObj α) (b : RcBox α), S.objs[p]? = some o ∧ P.w.boxes[p]? = some (some b) ∧
      p < P.w.boxes.length ∧ b.val = o.val ∧ b.weak = P.hands.weaks p ∧
      b.strong = P.hands.rcs p + (if o.orphan then 1 else 0) ∧ 1 ≤ b.strong := by
  have hp := I.lt_of_rcs h
  have ho : S.objs[p]? = some (S.objs[p]'(by rw [← I.len]; exact hp)) :=
    List.getElem?_eq_getElem _
  obtain ⟨b, hb, hv, hk, hf⟩ := I.box p _ ho
  refine ⟨_, b, ho, hb, hp, hv, hk, ?_⟩
  rcases hf with ⟨hs, hx⟩ | hx
  · refine ⟨hs, ?_⟩
    rcases hx with hx | hx
    · rw [hs, hx]; simp
    · omega
  · omega

theorem atRc (I : RcSim P S) {h p : Nat} (hk : P.hands[h]? = some (some (.rc p))) :
    ∃ (o : RcObj α) (b : RcBox α), S.objs[p]? = some o ∧ P.w.boxes[p]? = some (some b) ∧
      p < P.w.boxes.length ∧ b.val = o.val ∧ b.weak = P.hands.weaks p ∧
      b.strong = P.hands.rcs p + (if o.orphan then 1 else 0) ∧ 1 ≤ b.strong :=
  I.at' (Or.inl (Hands.rcs_pos hk))

theorem atWeak (I : RcSim P S) {h p : Nat} (hk : P.hands[h]? = some (some (.weak (some p)))) :
    ∃ (o : RcObj α) (b : RcBox α), S.objs[p]? = some o ∧ P.w.boxes[p]? = some (some b) ∧
      p < P.w.boxes.length ∧ b.val = o.val ∧ b.weak = P.hands.weaks p ∧
      b.strong = P.hands.rcs p + (if o.orphan then 1 else 0) ∧ 1 ≤ b.strong :=
  I.at' (Or.inr (Hands.weaks_pos hk))

theorem set_same {l : List β} {p : Nat} {o : β} (h : l[p]? = some o) : l.set p o = l := by
  obtain ⟨hl, e⟩ := List.getElem?_eq_some_iff.mp h
  subst e
  exact List.set_getElem_self hl

/-- `Alone`, in terms of the box. -/
theorem alone_iff (I : RcSim P S) {p : Nat} {o : RcObj α} {b : RcBox α}
    (hk : b.weak = P.hands.weaks p) (hs : b.strong = P.hands.rcs p + (if o.orphan then 1 else 0))
    (h1 : 1 ≤ P.hands.rcs p) : S.Alone p o ↔ b.strong = 1 ∧ b.weak = 0 := by
  unfold RcState.Alone
  rw [← I.hands, hk, hs]
  cases o.orphan <;> simp
  omega

/-- `Only`, in terms of the box. -/
theorem only_iff (I : RcSim P S) {p : Nat} {o : RcObj α} {b : RcBox α}
    (hs : b.strong = P.hands.rcs p + (if o.orphan then 1 else 0))
    (h1 : 1 ≤ P.hands.rcs p) : S.Only p o ↔ b.strong = 1 := by
  unfold RcState.Only
  rw [← I.hands, hs]
  cases o.orphan <;> simp
  omega

end RcSim

/-- What a permitted call is to establish. -/
def RcMove (P : RcPool α) (S : RcState α) (cmd : RcCmd α) (out : Option (RcOut α)) (P' : RcPool α) :
    Prop :=
  ∃ S', RcStep cmd ⟨out, P'.w.refusals != P.w.refusals⟩ S S' ∧ RcSim P' S' ∧
    P'.hands.length ≤ P.hands.length + 1

namespace RcSim
variable {P : RcPool α} {S : RcState α}

theorem move {cmd : RcCmd α} {out : Option (RcOut α)} {P' : RcPool α}
    (S' : RcState α) (hr : P'.w.refusals = P.w.refusals) (hs : RcStep cmd ⟨out, false⟩ S S')
    (hI : RcSim P' S') (hl : P'.hands.length ≤ P.hands.length + 1) : RcMove P S cmd out P' := by
  refine ⟨S', ?_, hI, hl⟩
  rw [hr]
  simpa using hs

theorem pushRc (I : RcSim P S) {p : Nat} {o : RcObj α} {b : RcBox α} (ho : S.objs[p]? = some o)
    (hp : p < P.w.boxes.length) (hv : b.val = o.val) (hk : b.weak = P.hands.weaks p)
    (hs : b.strong = P.hands.rcs p + (if o.orphan then 1 else 0)) :
    RcSim ⟨P.hands ++ [some (.rc p)], P.w.put p { b with strong := b.strong + 1 }⟩
      ⟨S.hands ++ [some (.rc p)], S.objs⟩ := by
  refine I.update (o' := o) hp (by rw [I.hands]) rfl (set_same ho).symm (fun q hq => ?_) ?_
  · constructor
    · simp only [Hands.rcs_push]
      rw [if_neg (by intro e; cases e; exact hq rfl)]; rfl
    · simp [Hands.weaks_push]
  · refine ⟨hv, ?_, Or.inl ⟨?_, Or.inr ?_⟩⟩
    · simp [Hands.weaks_push, hk]
    · simp [Hands.rcs_push, hs]; omega
    · simp [Hands.rcs_push]

theorem pushWeak (I : RcSim P S) {p : Nat} {o : RcObj α} {b : RcBox α} (ho : S.objs[p]? = some o)
    (hp : p < P.w.boxes.length) (hv : b.val = o.val) (hk : b.weak = P.hands.weaks p)
    (hs : b.strong = P.hands.rcs p + (if o.orphan then 1 else 0)) (h1 : 1 ≤ b.strong) :
    RcSim ⟨P.hands ++ [some (.weak (some p))], P.w.put p { b with weak := b.weak + 1 }⟩
      ⟨S.hands ++ [some (.weak (some p))], S.objs⟩ := by
  refine I.update (o' := o) hp (by rw [I.hands]) rfl (set_same ho).symm (fun q hq => ?_) ?_
  · constructor
    · simp [Hands.rcs_push]
    · simp only [Hands.weaks_push]
      rw [if_neg (by intro e; cases e; exact hq rfl)]; rfl
  · refine ⟨hv, ?_, Or.inl ⟨?_, ?_⟩⟩
    · simp [Hands.weaks_push, hk]
    · simp [Hands.rcs_push, hs]
    · simp only [Hands.rcs_push]
      cases ho' : o.orphan
      · rw [ho'] at hs; simp at hs ⊢; omega
      · simp

theorem pushNull (I : RcSim P S) :
    RcSim ⟨P.hands ++ [some (.weak none)], P.w⟩ ⟨S.hands ++ [some (.weak none)], S.objs⟩ :=
  I.still (by rw [I.hands]) rfl rfl fun q => ⟨by simp [Hands.rcs_push], by simp [Hands.weaks_push]⟩

end RcSim

end Lokky
