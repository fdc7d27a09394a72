import Verif.Proofs.UrcRun

/-!
# What no call of `Urc` does: it never drops a value, and never releases a master

This is about all programs.
-/

namespace Lokky
variable {α : Type} {c : Cfg α}

/-- No value was dropped and no master released. -/
structure UrcHeld (w w' : UrcWorld α) : Prop where
  dropped : w'.dropped = w.dropped
  masters : ∀ (m : Nat) (x : UrcMaster α), w.masters[m]? = some (some x) → ∃ x', w'.masters[m]? = some (some x')

theorem UrcHeld.refl (w : UrcWorld α) : UrcHeld w w := ⟨rfl, fun _ x h => ⟨x, h⟩⟩

theorem UrcHeld.trans {w w' w'' : UrcWorld α} (h : UrcHeld w w') (h' : UrcHeld w' w'') : UrcHeld w w'' :=
  ⟨h'.dropped.trans h.dropped, fun m x hx => by
    obtain ⟨x', hx'⟩ := h.masters m x hx
    exact h'.masters m x' hx'⟩

/-- No value was ever sent. -/
def NoneSent (w : UrcWorld α) : Prop := ∀ (m : Nat) (x : UrcMaster α), w.masters[m]? = some (some x) → x.sent = 0

def StayUnsent (w w' : UrcWorld α) : Prop := NoneSent w → NoneSent w'

/-- The state after a run is in relation to `s`. -/
def KeepsAt {σ β : Type} (R : σ → σ → Prop) (s : σ) (r : Res σ β) : Prop :=
  match r with
  | .ok _ s' => R s s'
  | .panic s' => R s s'
  | _ => True

/-- Code that keeps to `R`. -/
def KeepsTo {σ β : Type} (R : σ → σ → Prop) (m : M σ β) : Prop := ∀ s, KeepsAt R s (m s)

/-- A relation along which code can be composed. -/
structure Along {σ : Type} (R : σ → σ → Prop) : Prop where
  refl : ∀ s, R s s
  trans : ∀ s s' s'', R s s' → R s' s'' → R s s''

theorem along_held : Along (UrcHeld (α := α)) := ⟨UrcHeld.refl, fun _ _ _ => UrcHeld.trans⟩
theorem along_unsent : Along (StayUnsent (α := α)) := ⟨fun _ h => h, fun _ _ _ h h' hs => h' (h hs)⟩

theorem KeepsAt.after {σ β : Type} {R : σ → σ → Prop} (A : Along R) {s s' : σ} {r : Res σ β} (h : R s s')
    (h' : KeepsAt R s' r) : KeepsAt R s r := by
  cases r with
  | ok a s'' => exact A.trans _ _ _ h h'
  | panic s'' => exact A.trans _ _ _ h h'
  | abort => trivial
  | ub u => trivial

namespace KeepsTo
variable {σ β γ : Type} {R : σ → σ → Prop}

theorem pure (A : Along R) (a : β) : KeepsTo R (Pure.pure a : M σ β) := fun s => A.refl s
theorem boom (A : Along R) : KeepsTo R (M.boom : M σ β) := fun s => A.refl s
theorem undef (u : UB) : KeepsTo R (M.undef u : M σ β) := fun _ => trivial

theorem bind (A : Along R) {m : M σ β} {k : β → M σ γ} (hm : KeepsTo R m) (hk : ∀ a, KeepsTo R (k a)) :
    KeepsTo R (m >>= k) := by
  intro s
  have h1 := hm s
  rw [M.bind_apply]
  cases hr : m s with
  | ok a s' =>
    rw [hr] at h1
    have h2 := hk a s'
    exact h2.after A h1
  | panic s' => rw [hr] at h1; exact h1
  | abort => trivial
  | ub u => trivial

theorem ite (p : Prop) [Decidable p] {m m' : M σ β} (h : p → KeepsTo R m) (h' : ¬ p → KeepsTo R m') :
    KeepsTo R (if p then m else m') := by
  split
  · exact h ‹_›
  · exact h' ‹_›

theorem modify {f : σ → σ} (h : ∀ s, R s (f s)) : KeepsTo R (M.modify f) := h

theorem andAlways (A : Along R) {m k : M σ Unit} (hm : KeepsTo R m) (hk : KeepsTo R k) :
    KeepsTo R (M.andAlways m k) := by
  intro s
  have h1 := hm s
  simp only [M.andAlways, M.onUnwind, M.seq]
  cases hr : m s with
  | ok a s' =>
    rw [hr] at h1
    have h2 := hk s'
    exact h2.after A h1
  | panic s' =>
    rw [hr] at h1
    have h2 := hk s'
    simp only []
    cases hr2 : k s' with
    | ok b s'' => rw [hr2] at h2; exact A.trans _ _ _ h1 h2
    | panic s'' => trivial
    | abort => trivial
    | ub u => trivial
  | abort => trivial
  | ub u => trivial

theorem uadd (A : Along R) (a b : Nat) : KeepsTo R (Lokky.uadd c a b : M σ Nat) :=
  ite _ (fun _ => pure A _) fun _ => ite _ (fun _ => boom A) fun _ => pure A _
theorem usub (A : Along R) (a b : Nat) : KeepsTo R (Lokky.usub c a b : M σ Nat) :=
  ite _ (fun _ => pure A _) fun _ => ite _ (fun _ => boom A) fun _ => pure A _
theorem debugAssert (A : Along R) (p : Prop) [Decidable p] : KeepsTo R (Lokky.debugAssert c p : M σ Unit) :=
  ite _ (fun _ => boom A) fun _ => pure A _

end KeepsTo

/-- What is needed of a relation on memories, to hold along all calls that do not send. -/
structure UrcAlong (R : UrcWorld α → UrcWorld α → Prop) : Prop where
  along : Along R
  same : ∀ w w', w'.masters = w.masters → w'.dropped = w.dropped → R w w'
  put : ∀ w m x x', w.masters[m]? = some (some x) → x'.sent = x.sent →
    R w { w with masters := w.masters.set m (some x') }
  push : ∀ w v, R w { w with masters := w.masters ++ [some ⟨1, 0, v, true, 0⟩], tick := w.tick + 1 }

theorem urcAlong_held : UrcAlong (UrcHeld (α := α)) where
  along := along_held
  same w w' h1 h2 := ⟨h2, fun m x hx => ⟨x, h1 ▸ hx⟩⟩
  put w m x x' hx _ := ⟨rfl, fun m' y hy => by
    by_cases e : m = m'
    · subst e
      exact ⟨x', by simp [(List.getElem?_eq_some_iff.mp hx).1]⟩
    · exact ⟨y, by simpa [List.getElem?_set_ne e] using hy⟩⟩
  push w v := ⟨rfl, fun m x hx => ⟨x, by
    have := (List.getElem?_eq_some_iff.mp hx).1
    simpa only [List.getElem?_append_left this] using hx⟩⟩

theorem urcAlong_unsent : UrcAlong (StayUnsent (α := α)) where
  along := along_unsent
  same w w' h1 _ h m x hx := h m x (h1 ▸ hx)
  put w m x x' hx hs h m' y hy := by
    by_cases e : m = m'
    · subst e
      simp only [List.getElem?_set_self (List.getElem?_eq_some_iff.mp hx).1, Option.some.injEq] at hy
      subst hy
      exact hs.trans (h m x hx)
    · simp only [List.getElem?_set_ne e] at hy
      exact h m' y hy
  push w v h m x hx := by
    by_cases e : m < w.masters.length
    · simp only [List.getElem?_append_left e] at hx
      exact h m x hx
    · have e2 : m = w.masters.length := by
        have := (List.getElem?_eq_some_iff.mp hx).1
        simp only [List.length_append, List.length_cons, List.length_nil] at this
        omega
      subst e2
      simp at hx
      subst hx
      rfl

namespace Urc
variable {R : UrcWorld α → UrcWorld α → Prop}

section
variable (A : UrcAlong R)
include A

theorem keeps_fence (f : Nat) : KeepsTo R (fence f) := by
  intro w
  unfold fence
  cases hf : w.fences[f]? with
  | none => trivial
  | some o => cases o with
    | none => trivial
    | some F => exact A.along.refl w

theorem keeps_master (m : Nat) : KeepsTo R (master m) := by
  intro w
  unfold master
  cases hf : w.masters[m]? with
  | none => trivial
  | some o => cases o with
    | none => trivial
    | some F => exact A.along.refl w

theorem keeps_putFence (f : Nat) (F : UrcFence) : KeepsTo R (putFence f F) :=
  .modify fun w => A.same _ _ rfl rfl

/-- A master is read and then changed. -/
theorem keeps_put {β : Type} (m : Nat) (g : UrcMaster α → UrcMaster α) (hg : ∀ x, (g x).sent = x.sent)
    {k : UrcMaster α → M (UrcWorld α) β} (hk : ∀ x, KeepsTo R (k x)) :
    KeepsTo R (do
      let x ← master m
      putMaster m (g x)
      k x) := by
  intro w
  rw [M.bind_apply]
  unfold master
  cases hf : w.masters[m]? with
  | none => trivial
  | some o => cases o with
    | none => trivial
    | some x =>
      simp only []
      rw [M.bind_apply]
      simp only [putMaster, M.modify]
      have h1 := A.put w m x (g x) hf (hg x)
      exact (hk x { w with masters := w.masters.set m (some (g x)) }).after A.along h1

theorem keeps_putLast (m : Nat) (g : UrcMaster α → UrcMaster α) (hg : ∀ x, (g x).sent = x.sent) :
    KeepsTo R (do
      let x ← master m
      putMaster m (g x)) :=
  keeps_put A m g hg (k := fun _ => pure ()) fun _ => .pure A.along _

theorem keeps_data (m : Nat) : KeepsTo R (data m) :=
  .bind A.along (keeps_master A m) fun _ => .ite _ (fun _ => .pure A.along _) fun _ => .undef _

theorem keeps_incStrong (f : Nat) : KeepsTo R (incStrong c f) :=
  .bind A.along (keeps_fence A f) fun _ => .bind A.along (.uadd A.along _ _) fun _ => keeps_putFence A _ _
theorem keeps_incWeak (f : Nat) : KeepsTo R (incWeak c f) :=
  .bind A.along (keeps_fence A f) fun _ => .bind A.along (.uadd A.along _ _) fun _ => keeps_putFence A _ _
theorem keeps_decStrong (f : Nat) : KeepsTo R (decStrong c f) :=
  .bind A.along (keeps_fence A f) fun _ => .bind A.along (.debugAssert A.along _) fun _ =>
    .bind A.along (.usub A.along _ _) fun _ => keeps_putFence A _ _
theorem keeps_decWeak (f : Nat) : KeepsTo R (decWeak c f) :=
  .bind A.along (keeps_fence A f) fun _ => .bind A.along (.debugAssert A.along _) fun _ =>
    .bind A.along (.usub A.along _ _) fun _ => keeps_putFence A _ _

theorem keeps_freeFence (f : Nat) : KeepsTo R (freeFence f) := by
  intro w
  unfold freeFence
  cases hf : w.fences[f]? with
  | none => trivial
  | some o => cases o with
    | none => trivial
    | some F => exact A.same _ _ rfl rfl

theorem keeps_allocFence (F : UrcFence) : KeepsTo R (allocFence c F) := by
  intro w
  unfold allocFence
  cases c.grant w.tick c.size with
  | true => exact A.same _ _ rfl rfl
  | false => exact A.same _ _ rfl rfl

theorem keeps_new (v : α) : KeepsTo R (new c v) := by
  refine .bind A.along ?_ fun o => ?_
  · intro w
    unfold allocMaster
    cases c.grant w.tick c.size with
    | true => exact A.push w v
    | false => exact A.same _ _ rfl rfl
  · cases o with
    | none => exact .boom A.along
    | some m =>
      refine .bind A.along (keeps_allocFence A _) fun o => ?_
      cases o with
      | none => exact .boom A.along
      | some f => exact .pure A.along _

theorem keeps_drop (f : Nat) : KeepsTo R (drop c f) := by
  refine .bind A.along (keeps_fence A f) fun F => .ite _ (fun _ => ?_) fun _ => keeps_decStrong A f
  refine .bind A.along (keeps_freeFence A f) fun _ => ?_
  refine keeps_put A F.master (fun x => { x with sf := wrapSub c x.sf }) (fun _ => rfl) fun x => ?_
  refine .ite _ (fun _ => ?_) fun _ => .pure A.along _
  refine .bind A.along (.pure A.along _) fun _ => .bind A.along (keeps_master A _) fun x => ?_
  exact .ite _ (fun _ => .pure A.along _) fun _ => .pure A.along _

theorem keeps_weakDrop (f m : Nat) : KeepsTo R (weakDrop c f m) := by
  refine .bind A.along (keeps_fence A f) fun F => .ite _ (fun _ => ?_) fun _ => keeps_decWeak A f
  refine .bind A.along (.pure A.along _) fun _ => ?_
  refine keeps_put A m (fun x => { x with wf := wrapSub c x.wf }) (fun _ => rfl) fun x => ?_
  refine .ite _ (fun _ => ?_) fun _ => .pure A.along _
  refine .bind A.along (keeps_master A _) fun x => ?_
  exact .ite _ (fun _ => .pure A.along _) fun _ => .pure A.along _

theorem keeps_getMut (f : Nat) : KeepsTo R (getMut c f) := by
  refine .bind A.along (keeps_fence A f) fun F => ?_
  intro w
  rw [M.bind_apply]
  cases hf : w.masters[F.master]? with
  | none => simp only [master, hf]; trivial
  | some o => cases o with
    | none => simp only [master, hf]; trivial
    | some x =>
      rw [master_eq hf]
      simp only []
      have hl := (List.getElem?_eq_some_iff.mp hf).1
      by_cases h0 : x.wf = 0
      · rw [if_pos h0, M.bind_apply]
        simp only [putMaster, M.modify]
        rw [M.bind_apply, master_eq (x := { x with wf := c.usizeMax }) (by simp [hl])]
        simp only []
        by_cases h1 : x.sf = 1
        · rw [if_pos h1, M.bind_apply]
          simp only [M.modify, List.set_set]
          exact A.put w _ x _ hf rfl
        · rw [if_neg h1]
          exact A.put w _ x _ hf rfl
      · rw [if_neg h0]
        exact A.along.refl w

theorem keeps_write (f : Nat) (g : α → α) : KeepsTo R (write f g) := by
  refine .bind A.along (keeps_fence A f) fun F => .bind A.along (keeps_data A _) fun v => ?_
  exact keeps_put A F.master (fun x => { x with val := g v }) (fun _ => rfl) fun x => .pure A.along _

omit A in
/-- After `try_unwrap` has given back the fence, it is undefined behaviour. -/
theorem releaseBoth_ub (f : Nat) (w : UrcWorld α) : ∃ u, releaseBoth f w = .ub u := by
  rw [releaseBoth, M.bind_apply]
  unfold freeFence
  cases hf : w.fences[f]? with
  | none => exact ⟨_, rfl⟩
  | some o => cases o with
    | none => exact ⟨_, rfl⟩
    | some F =>
      refine ⟨.oob, ?_⟩
      simp only []
      rw [M.bind_apply]
      simp only [fence, List.getElem?_set_self (List.getElem?_eq_some_iff.mp hf).1]

theorem keeps_tryUnwrap (f : Nat) : KeepsTo R (tryUnwrap f : M (UrcWorld α) _) := by
  refine .bind A.along (keeps_fence A f) fun F => ?_
  intro w
  rw [M.bind_apply]
  cases hf : w.masters[F.master]? with
  | none => simp only [master, hf]; trivial
  | some o => cases o with
    | none => simp only [master, hf]; trivial
    | some x =>
      rw [master_eq hf]
      simp only []
      have hl := (List.getElem?_eq_some_iff.mp hf).1
      by_cases h0 : x.sf = 1
      · rw [if_pos h0, M.bind_apply]
        simp only [putMaster, M.modify]
        refine KeepsAt.after A.along (A.put w F.master x { x with sf := 0 } hf rfl) ?_
        refine KeepsTo.ite _ (fun _ => .pure A.along _) (fun _ => ?_) _
        refine .bind A.along (keeps_data A _) fun v => ?_
        refine keeps_put A F.master (fun x => { x with alive := false }) (fun _ => rfl) fun x => ?_
        refine .bind A.along (.ite _ (fun _ w => ?_) fun _ => .pure A.along _) fun _ => .pure A.along _
        obtain ⟨u, hu⟩ := releaseBoth_ub f w
        rw [hu]
        trivial
      · rw [if_neg h0]
        exact A.along.refl w

theorem keeps_fromFence (f : Nat) : KeepsTo R (fromFence c f) := by
  refine .bind A.along (keeps_fence A f) fun F => .bind A.along (keeps_freeFence A f) fun _ =>
    .bind A.along (keeps_freeFence A f) fun _ => .bind A.along (keeps_allocFence A _) fun o => ?_
  cases o with
  | none => exact .boom A.along
  | some f => exact .pure A.along _

omit A in
/-- The relation for code beside a handle. -/
theorem keeps_lift {β : Type} {m : M (UrcWorld α) β} (h : KeepsTo R m) :
    KeepsTo (fun s s' : Nat × UrcWorld α => R s.2 s'.2) (lift m) := by
  intro s
  have h1 := h s.2
  unfold lift
  cases hr : m s.2 with
  | ok b s'' => rw [hr] at h1; exact h1
  | panic s'' => rw [hr] at h1; exact h1
  | abort => trivial
  | ub u => trivial

theorem along_lift : Along (fun s s' : Nat × UrcWorld α => R s.2 s'.2) :=
  ⟨fun s => A.along.refl s.2, fun s s' s'' => A.along.trans s.2 s'.2 s''.2⟩

theorem keeps_replace (q : Nat) :
    KeepsTo (fun s s' : Nat × UrcWorld α => R s.2 s'.2) (replace c q) := by
  refine .andAlways (along_lift A) (.bind (along_lift A) (fun s => A.along.refl s.2)
    fun s => keeps_lift (keeps_drop A _)) (.modify fun s => A.along.refl s.2)

theorem keeps_cloneOut (m : Nat) :
    KeepsTo (fun s s' : Nat × UrcWorld α => R s.2 s'.2) (cloneOut c m) := by
  refine .bind (along_lift A) (keeps_lift (keeps_data A _)) fun v =>
    .bind (along_lift A) (keeps_lift fun w => ?_) fun v' =>
    .bind (along_lift A) (keeps_lift (keeps_new A _)) fun q => keeps_replace A q
  unfold cloneVal
  cases c.clone w.calls v with
  | none => exact A.same _ _ rfl rfl
  | some b => exact A.same _ _ rfl rfl

/-- A master is read and then changed, beside a handle. -/
theorem keeps_liftPut {β : Type} (m : Nat) (g : UrcMaster α → UrcMaster α) (hg : ∀ x, (g x).sent = x.sent)
    {k : M (Nat × UrcWorld α) β} (hk : KeepsTo (fun s s' : Nat × UrcWorld α => R s.2 s'.2) k) :
    KeepsTo (fun s s' : Nat × UrcWorld α => R s.2 s'.2) (do
      let x ← lift (master m)
      lift (putMaster m (g x))
      k) := by
  have h := KeepsTo.bind (along_lift A) (keeps_lift (keeps_putLast A m g hg)) fun _ => hk
  intro s
  have h1 := h s
  have e : (do
      let x ← lift (master m)
      lift (putMaster m (g x))
      k) s = ((lift (do
        let x ← master m
        putMaster m (g x)) : M (Nat × UrcWorld α) Unit) >>= fun _ => k) s := by
    simp only [M.bind_apply, lift]
    cases master m s.2 with
    | ok x w' => rfl
    | panic w' => rfl
    | abort => rfl
    | ub u => rfl
  rw [e]
  exact h1

theorem keeps_moveOut (f m : Nat) :
    KeepsTo (fun s s' : Nat × UrcWorld α => R s.2 s'.2) (moveOut c f m) := by
  refine .bind (along_lift A) (keeps_lift (keeps_data A _)) fun v =>
    .bind (along_lift A) (keeps_lift (keeps_fence A _)) fun F =>
    .bind (along_lift A) (keeps_lift (keeps_putFence A _ _)) fun _ =>
    keeps_liftPut A m (fun x => { x with sf := 0 }) (fun _ => rfl) <|
    .bind (along_lift A) (keeps_lift (keeps_new A _)) fun q => ?_
  exact keeps_liftPut A m (fun x => { x with alive := false }) (fun _ => rfl) (keeps_replace A q)

theorem keeps_makeMut : KeepsTo (fun s s' : Nat × UrcWorld α => R s.2 s'.2) (makeMut c) := by
  intro s
  obtain ⟨f, w⟩ := s
  cases hf : w.fences[f]? with
  | none => simp [makeMut, M.bind_apply, lift, fence, hf, KeepsAt]
  | some o => cases o with
    | none => simp [makeMut, M.bind_apply, lift, fence, hf, KeepsAt]
    | some F =>
      cases hx : w.masters[F.master]? with
      | none => simp [makeMut, M.bind_apply, lift, fence, hf, master, hx, KeepsAt]
      | some o => cases o with
        | none => simp [makeMut, M.bind_apply, lift, fence, hf, master, hx, KeepsAt]
        | some x =>
          rw [makeMut_unfold hf hx]
          by_cases h1 : x.sf = 1
          · rw [if_pos h1]
            by_cases h2 : F.weak ≠ 0
            · rw [if_pos h2]
              refine KeepsTo.ite (R := fun s s' : Nat × UrcWorld α => R s.2 s'.2) _ (fun _ => ?_)
                (fun _ => keeps_moveOut A _ _) (f, w)
              exact KeepsTo.ite _ (fun _ => keeps_moveOut A _ _) (fun _ => keeps_cloneOut A _)
            · rw [if_neg h2]
              have hrest : KeepsTo (fun s s' : Nat × UrcWorld α => R s.2 s'.2) (do
                  lift (weakDrop c f F.master)
                  moveOut c f F.master) :=
                .bind (along_lift A) (keeps_lift (keeps_weakDrop A _ _)) fun _ => keeps_moveOut A _ _
              rw [M.bind_apply]
              have hu : KeepsTo (fun s s' : UrcWorld α => s = s') (uadd c x.wf 1) :=
                .uadd ⟨fun _ => rfl, fun _ _ _ h h' => h.trans h'⟩ _ _
              have hu1 := hu w
              simp only [lift]
              cases hr : (uadd c x.wf 1 : M (UrcWorld α) Nat) w with
              | ok n w1 =>
                rw [hr] at hu1
                obtain rfl : w = w1 := hu1
                simp only []
                rw [M.bind_apply]
                simp only [lift, putMaster, M.modify]
                exact KeepsAt.after (along_lift A) (s := (f, w))
                  (s' := (f, { w with masters := w.masters.set F.master (some { x with wf := n }) }))
                  (A.put w F.master x { x with wf := n } hx rfl) (hrest _)
              | panic w1 => rw [hr] at hu1; obtain rfl : w = w1 := hu1; exact A.along.refl w
              | abort => trivial
              | ub u => trivial
          · rw [if_neg h1]
            exact keeps_cloneOut A _ (f, w)

end

theorem held_envelop (f : Nat) : KeepsTo UrcHeld (envelop c f : M (UrcWorld α) Nat) := by
  refine .bind along_held (keeps_fence urcAlong_held f) fun F => ?_
  intro w
  rw [M.bind_apply]
  unfold master
  cases hf : w.masters[F.master]? with
  | none => trivial
  | some o => cases o with
    | none => trivial
    | some x =>
      have hl := (List.getElem?_eq_some_iff.mp hf).1
      have h1 : ∀ x' fs t, UrcHeld w ⟨w.masters.set F.master (some x'), fs, t, w.calls, w.dropped⟩ := by
        refine fun x' fs t => ⟨rfl, fun m' y hy => ?_⟩
        by_cases e : F.master = m'
        · subst e
          exact ⟨x', by simp [hl]⟩
        · exact ⟨y, by simpa [List.getElem?_set_ne e] using hy⟩
      simp only [M.bind_apply, putMaster, M.modify, allocFence]
      cases c.grant w.tick c.size with
      | true => exact h1 _ _ _
      | false => exact h1 _ _ _

end Urc

namespace UrcPool
variable {R : UrcWorld α → UrcWorld α → Prop}

theorem keeps_on {β : Type} {m : M (UrcWorld α) β} {H : β → List (Option UrcHand)} {H' : List (Option UrcHand)}
    {out : β → UrcOut α} (h : KeepsTo R m) :
    KeepsTo (fun P P' : UrcPool α => R P.w P'.w) (on m H H' out) := by
  intro P
  have h1 := h P.w
  unfold on
  cases hr : m P.w with
  | ok b s'' => rw [hr] at h1; exact h1
  | panic s'' => rw [hr] at h1; exact h1
  | abort => trivial
  | ub u => trivial

theorem keeps_makeMut (A : UrcAlong R) (h f : Nat) (g : α → α) :
    KeepsTo (fun P P' : UrcPool α => R P.w P'.w) (makeMut c h f g) := by
  intro P
  have h1 := Urc.keeps_makeMut (c := c) A (f, P.w)
  unfold makeMut
  cases hr : Urc.makeMut c (f, P.w) with
  | ok b s =>
    rw [hr] at h1
    obtain ⟨q, w⟩ := s
    simp only []
    have h2 := keeps_on (H := fun _ => P.hands.set h (some (.urc q))) (H' := P.hands.set h (some (.urc q)))
      (out := .val) (Urc.keeps_write A q g) ⟨P.hands, w⟩
    exact KeepsAt.after (R := fun P P' : UrcPool α => R P.w P'.w) (s' := ⟨P.hands, w⟩) ⟨fun P => A.along.refl P.w, fun P P' P'' => A.along.trans P.w P'.w P''.w⟩
      h1 h2
  | panic s => rw [hr] at h1; exact h1
  | abort => trivial
  | ub u => trivial

end UrcPool

/-- Every call keeps to `R`, if sending does. -/
theorem keeps_runUrc {R : UrcWorld α → UrcWorld α → Prop} (A : UrcAlong R) (cmd : UrcCmd α)
    (he : ∀ h f, cmd = .envelop h → KeepsTo R (Urc.envelop c f)) :
    KeepsTo (fun P P' : UrcPool α => R P.w P'.w) (runUrc c cmd) := by
  intro P
  cases cmd with
  | new x => exact UrcPool.keeps_on (Urc.keeps_new A x) P
  | clone h =>
    simp only [runUrc]
    split
    · exact UrcPool.keeps_on (.bind A.along (Urc.keeps_incStrong A _) fun _ => .pure A.along _) P
    · exact A.along.refl _
  | downgrade h =>
    simp only [runUrc]
    split
    · exact UrcPool.keeps_on (.bind A.along (Urc.keeps_incWeak A _) fun _ =>
        .bind A.along (Urc.keeps_fence A _) fun _ => .pure A.along _) P
    · exact A.along.refl _
  | envelop h =>
    simp only [runUrc]
    split
    · exact UrcPool.keeps_on (he h _ rfl) P
    · exact A.along.refl _
  | drop h =>
    simp only [runUrc]
    split
    · exact UrcPool.keeps_on (Urc.keeps_drop A _) P
    · exact UrcPool.keeps_on (Urc.keeps_weakDrop A _ _) P
    · exact UrcPool.keeps_on (Urc.keeps_freeFence A _) P
    · exact A.along.refl _
  | read h =>
    simp only [runUrc]
    split
    · exact UrcPool.keeps_on (.bind A.along (Urc.keeps_fence A _) fun _ => Urc.keeps_data A _) P
    · exact A.along.refl _
  | strongCount h =>
    simp only [runUrc]
    split
    · exact UrcPool.keeps_on (Urc.keeps_fence A _) P
    · exact UrcPool.keeps_on (Urc.keeps_fence A _) P
    · exact A.along.refl _
  | weakCount h =>
    simp only [runUrc]
    split
    · exact UrcPool.keeps_on (Urc.keeps_fence A _) P
    · exact UrcPool.keeps_on (Urc.keeps_fence A _) P
    · exact A.along.refl _
  | isSole h =>
    simp only [runUrc]
    split
    · exact UrcPool.keeps_on (.bind A.along (Urc.keeps_fence A _) fun _ =>
        .bind A.along (Urc.keeps_master A _) fun _ => .pure A.along _) P
    · exact A.along.refl _
  | setMut h x =>
    simp only [runUrc]
    split
    · refine UrcPool.keeps_on (.bind A.along (Urc.keeps_getMut A _) fun b => ?_) P
      exact .ite _ (fun _ => .bind A.along (Urc.keeps_write A _ _) fun _ => .pure A.along _)
        fun _ => .pure A.along _
    · exact A.along.refl _
  | makeMut h g =>
    simp only [runUrc]
    split
    · exact UrcPool.keeps_makeMut A _ _ _ P
    · exact A.along.refl _
  | tryUnwrap h =>
    simp only [runUrc]
    split
    · exact UrcPool.keeps_on (Urc.keeps_tryUnwrap A _) P
    · exact A.along.refl _
  | intoFence h =>
    simp only [runUrc]
    split
    · exact UrcPool.keeps_on (.bind A.along (Urc.keeps_fence A _) fun _ => .pure A.along _) P
    · exact A.along.refl _
  | fromFence h =>
    simp only [runUrc]
    split
    · exact UrcPool.keeps_on (Urc.keeps_fromFence A _) P
    · exact A.along.refl _

theorem UrcHappens.held {P P' : UrcPool α} {cmd : UrcCmd α} {o : Option (UrcOut α)}
    (h : UrcHappens c P cmd o P') : UrcHeld P.w P'.w := by
  have := keeps_runUrc (c := c) urcAlong_held cmd (fun _ f _ => Urc.held_envelop f) P
  cases h with
  | ret e => rw [e] at this; exact this
  | panic e => rw [e] at this; exact this

theorem UrcHappens.unsent {P P' : UrcPool α} {cmd : UrcCmd α} {o : Option (UrcOut α)}
    (h : UrcHappens c P cmd o P') (hc : ∀ i, cmd ≠ .envelop i) : StayUnsent P.w P'.w := by
  have := keeps_runUrc (c := c) urcAlong_unsent cmd (fun i f e => (hc i e).elim) P
  cases h with
  | ret e => rw [e] at this; exact this
  | panic e => rw [e] at this; exact this

variable {ok : UrcPool α → UrcCmd α → Prop} {hist : List (UrcCmd α × Option (UrcOut α))} {P : UrcPool α}

/-- No program makes `Urc` drop a value. -/
theorem UrcReaches.dropped (h : UrcReaches c ok hist P) : P.w.dropped = [] := by
  induction h with
  | start => rfl
  | step h hok hh ih => rw [hh.held.dropped, ih]

/-- No value was sent by a program without `envelop`. -/
theorem UrcReaches.unsent (h : UrcReaches c ok hist P) (hs : ∀ i o, (.envelop i, o) ∉ hist) :
    NoneSent P.w := by
  induction h with
  | start => intro m x hx; simp [UrcPool.start] at hx
  | @step hist P P' cmd o h hok hh ih =>
    refine hh.unsent (fun i e => hs i o ?_) (ih fun i o hm => hs i o ?_)
    · simp [e]
    · exact List.mem_append_left _ hm

end Lokky
