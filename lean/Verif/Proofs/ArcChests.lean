import Verif.Model.ArcChests
import Verif.Proofs.ArcUse
import Verif.Proofs.Chests

/-!
# `Arc`s in containers: what steps do to handles, and threads that do nothing
-/

namespace Lokky
variable {α : Type} {mx n t : Nat} {s s' : ArcSys α} {op : ArcOp α} {ch : ArcChoice α}

/-! ## One more thread that does nothing -/

/-- The same, with one more thread. -/
def ArcSys.more (s : ArcSys α) : ArcSys α := { s with threads := s.threads ++ [none] }

/-- What `m` does it does with one more thread as well. -/
def Wider (t : Nat) {β : Type} (m : M (ArcSys α) β) : Prop :=
  ∀ (s s' : ArcSys α) (b : β), t < s.threads.length → m s = .ok b s' → m s.more = .ok b s'.more ∧ s'.threads.length = s.threads.length

namespace Wider
variable {β γ : Type}

theorem pure (b : β) : Wider (α := α) t (Pure.pure b) := by
  intro s s' b' _ h
  cases h
  exact ⟨rfl, rfl⟩

theorem bind {m : M (ArcSys α) β} {f : β → M (ArcSys α) γ} (h1 : Wider t m) (h2 : ∀ b, Wider t (f b)) : Wider t (m >>= f) := by
  intro s s' b ht h
  rw [M.bind_apply] at h ⊢
  cases e : m s with
  | ok x s1 =>
    rw [e] at h
    obtain ⟨a, b'⟩ := h1 s s1 x ht e
    obtain ⟨c, d⟩ := h2 x s1 s' b (by omega) h
    rw [a]
    exact ⟨c, by omega⟩
  | panic _ => rw [e] at h; cases h
  | abort => rw [e] at h; cases h
  | ub _ => rw [e] at h; cases h

theorem undef (u : UB) : Wider (α := α) t (M.undef u : M (ArcSys α) β) := by
  intro s s' b _ h
  cases h

theorem obj (p : Nat) : Wider (α := α) t (Arc.obj p) := by
  intro s s' b _ h
  unfold Arc.obj at h ⊢
  simp only [ArcSys.more]
  split at h
  · split at h
    · cases h
    · cases h
      rename_i h1 h2
      simp [h1, h2]
  · cases h

theorem data (p : Nat) : Wider (α := α) t (Arc.data p) := by
  refine (obj p).bind fun o => ?_
  split
  · exact pure _
  · exact undef _

theorem put (p : Nat) (o : ArcObj α) : Wider t (Arc.put p o) := by
  intro s s' b _ h
  cases h
  exact ⟨rfl, rfl⟩

theorem goto (op : ArcOp α) : Wider t (Arc.goto t op) := by
  intro s s' b ht h
  cases h
  exact ⟨by simp [Arc.goto, M.modify, ArcSys.more, List.set_append_left _ _ ht], by simp⟩

theorem done (o : ArcOut α) : Wider t (Arc.done t o) := by
  intro s s' b ht h
  cases h
  exact ⟨by simp [Arc.done, M.modify, ArcSys.more, List.set_append_left _ _ ht], by simp⟩

theorem give (p : Nat) : Wider (α := α) t (Arc.give p) := by
  intro s s' b _ h
  cases h
  exact ⟨rfl, rfl⟩

theorem lose (p : Nat) (z : Bool) : Wider (α := α) t (Arc.lose p z) := by
  intro s s' b _ h
  cases h
  cases z <;> exact ⟨rfl, rfl⟩

theorem alloc (x : ArcObj α) (f : Nat → M (ArcSys α) Unit) (hf : ∀ q, Wider t (f q)) : Wider (α := α) t
    (do let s ← M.get
        M.modify fun s => { s with objs := s.objs ++ [x] }
        f s.objs.length) := by
  intro s s' b ht h
  exact hf s.objs.length { s with objs := s.objs ++ [x] } s' b ht h

theorem after (k : Option (Nat × α)) : Wider t (Arc.after t k) := by
  cases k with
  | none => exact done _
  | some k => exact goto _

theorem step : Wider t (Arc.step mx ch t op) := by
  cases op with
  | mmA p v x z =>
    simp only [Arc.step]
    split
    · exact alloc _ (fun q => Arc.goto t (.mm5 p v q z)) fun q => goto _
    · exact (lose _ _).bind fun _ => (give _).bind fun _ => done _
  | _ =>
    simp only [Arc.step]
    repeat' first
      | exact obj _ | exact data _ | exact put _ _ | exact goto _ | exact done _ | exact give _ | exact after _ | exact pure _
      | refine (obj _).bind fun _ => ?_ | refine (data _).bind fun _ => ?_ | refine (put _ _).bind fun _ => ?_
      | refine (give _).bind fun _ => ?_ | split

end Wider

theorem ArcStep.more (h : ArcStep mx True s s') : ArcStep mx True s.more s'.more := by
  have idle : ∀ {t : Nat} {x : Option (ArcOp α)}, s.threads[t]? = some x → s.more.threads[t]? = some x ∧ t < s.threads.length := by
    intro t x h
    obtain ⟨hl, _⟩ := List.getElem?_eq_some_iff.1 h
    exact ⟨by simp only [ArcSys.more]; rw [List.getElem?_append_left hl]; exact h, hl⟩
  cases h with
  | new t x ht => exact .new t x (idle ht).1
  | borrow t cmd ht hc hh =>
    have := ArcStep.borrow (mx := mx) (calm := True) (s := s.more) t cmd (idle ht).1 hc hh
    simpa [ArcSys.more, List.set_append_left _ _ (idle ht).2] using this
  | take t cmd ht hc hh ho hu =>
    have := ArcStep.take (mx := mx) (calm := True) (s := s.more) t cmd (idle ht).1 hc hh ho (by
      intro t' op' h'
      simp only [ArcSys.more, List.getElem?_append] at h'
      split at h'
      · exact hu t' op' h'
      · cases e : t' - s.threads.length <;> simp [e] at h')
    simpa [ArcSys.more, List.set_append_left _ _ (idle ht).2] using this
  | dropWeak p ho hw => exact ArcStep.dropWeak (s := s.more) p ho hw
  | run t ch ht hs hc => exact .run t ch (idle ht).1 (Wider.step s s' () (idle ht).2 hs).1 hc

theorem ArcReaches.more (h : ArcReaches mx True n s) : ArcReaches mx True n s.more := by
  obtain ⟨k, h⟩ := h
  refine ⟨k + 1, ?_⟩
  induction h with
  | refl =>
    have : (ArcSys.start k : ArcSys α).more = ArcSys.start (k + 1) := by
      simp [ArcSys.more, ArcSys.start, List.replicate_succ']
    rw [this]
    exact .refl
  | tail _ hs ih => exact .tail ih hs.more

/-! ## What steps do to handles -/

/-- Handles come at the end of the list, and go where they are. -/
structure HandsGrow (H H' : List (Option Nat)) : Prop where
  len : H.length ≤ H'.length
  old : ∀ x, isThere H' x = true → isThere H x = true ∨ H.length ≤ x
  new : ∀ x, H.length ≤ x → x < H'.length → isThere H' x = true

/-- Nothing goes. -/
def HandsAdd (H H' : List (Option Nat)) : Prop := ∃ l : List Nat, H' = H ++ l.map some

theorem HandsAdd.grow {H H' : List (Option Nat)} (h : HandsAdd H H') : HandsGrow H H' := by
  obtain ⟨l, rfl⟩ := h
  refine ⟨by simp, fun x hx => ?_, fun x h1 h2 => ?_⟩
  · rcases Nat.lt_or_ge x H.length with h | h
    · left
      unfold isThere at hx ⊢
      rwa [List.getElem?_append_left h] at hx
    · exact .inr h
  · unfold isThere
    rw [List.getElem?_append_right h1]
    simp only [List.length_append, List.length_map] at h2
    rw [List.getElem?_eq_getElem (by simpa using by omega)]
    simp

theorem HandsAdd.trans {H H' H'' : List (Option Nat)} (h : HandsAdd H H') (h' : HandsAdd H' H'') : HandsAdd H H'' := by
  obtain ⟨l, rfl⟩ := h
  obtain ⟨l', rfl⟩ := h'
  exact ⟨l ++ l', by simp⟩

theorem HandsAdd.refl (H : List (Option Nat)) : HandsAdd H H := ⟨[], by simp⟩

/-- `m` only adds handles. -/
def Gives {β : Type} (m : M (ArcSys α) β) : Prop := ∀ (s s' : ArcSys α) (b : β), m s = .ok b s' → HandsAdd s.hands s'.hands

namespace Gives
variable {β γ : Type}

theorem pure (b : β) : Gives (α := α) (Pure.pure b) := by
  intro s s' b' h
  cases h
  exact .refl _

theorem bind {m : M (ArcSys α) β} {f : β → M (ArcSys α) γ} (h1 : Gives m) (h2 : ∀ b, Gives (f b)) : Gives (m >>= f) := by
  intro s s' b h
  rw [M.bind_apply] at h
  cases e : m s with
  | ok x s1 =>
    rw [e] at h
    exact (h1 s s1 x e).trans (h2 x s1 s' b h)
  | panic _ => rw [e] at h; cases h
  | abort => rw [e] at h; cases h
  | ub _ => rw [e] at h; cases h

theorem obj (p : Nat) : Gives (α := α) (Arc.obj p) := by
  intro s s' b h
  unfold Arc.obj at h
  split at h
  · split at h
    · cases h
    · cases h; exact .refl _
  · cases h

theorem data (p : Nat) : Gives (α := α) (Arc.data p) := by
  refine (obj p).bind fun o => ?_
  split
  · exact pure _
  · intro s s' b h; cases h

theorem put (p : Nat) (o : ArcObj α) : Gives (Arc.put p o) := by
  intro s s' b h
  cases h
  exact .refl _

theorem goto (op : ArcOp α) : Gives (Arc.goto t op) := by
  intro s s' b h
  cases h
  exact .refl _

theorem done (o : ArcOut α) : Gives (Arc.done t o) := by
  intro s s' b h
  cases h
  exact .refl _

theorem give (p : Nat) : Gives (α := α) (Arc.give p) := by
  intro s s' b h
  cases h
  exact ⟨[p], rfl⟩

theorem lose (p : Nat) (z : Bool) : Gives (α := α) (Arc.lose p z) := by
  intro s s' b h
  cases h
  cases z <;> exact .refl _

theorem after (k : Option (Nat × α)) : Gives (Arc.after t k) := by
  cases k with
  | none => exact done _
  | some k => exact goto _

theorem step : Gives (Arc.step mx ch t op) := by
  cases op with
  | mmA p v x z =>
    simp only [Arc.step]
    split
    · intro s s' b h
      cases h
      exact .refl _
    · exact (lose _ _).bind fun _ => (give _).bind fun _ => done _
  | _ =>
    simp only [Arc.step]
    repeat' first
      | exact obj _ | exact data _ | exact put _ _ | exact goto _ | exact done _ | exact give _ | exact after _ | exact pure _
      | refine (obj _).bind fun _ => ?_ | refine (data _).bind fun _ => ?_ | refine (put _ _).bind fun _ => ?_
      | refine (give _).bind fun _ => ?_ | split

end Gives

theorem isThere_gone {H : List (Option Nat)} {x : Nat} : HandsGrow H (H.set x none) := by
  refine ⟨by simp, fun y hy => ?_, fun y h1 h2 => ?_⟩
  · rw [isThere_set] at hy
    exact .inl hy.1
  · simp at h2; omega

theorem ArcStep.grow (h : ArcStep mx True s s') : HandsGrow s.hands s'.hands := by
  cases h with
  | new t x _ => exact HandsAdd.grow ⟨[_], rfl⟩
  | borrow => exact (HandsAdd.refl _).grow
  | take => exact isThere_gone
  | dropWeak => exact (HandsAdd.refl _).grow
  | run t ch _ hs => exact (Gives.step s s' () hs).grow

theorem ArcRuns.adds {k : Nat} (h : ArcRuns mx t s k s') : HandsAdd s.hands s'.hands := by
  induction h with
  | refl => exact .refl _
  | tail ch _ _ hs _ ih => exact ih.trans (Gives.step _ _ () hs)

theorem ArcRuns.steps {k : Nat} {s0 : ArcSys α} (h : ArcRuns mx t s k s') (h0 : ArcSteps mx True s0 n s) :
    ArcSteps mx True s0 (n + k) s' := by
  induction h with
  | refl => exact h0
  | tail ch _ ht hs hl ih => exact .tail ih (.run t ch ht hs fun _ => hl)

/-! ## `Arc`s are things that containers can keep -/

/-- What is known of `Arc`s after `n` calls. -/
def ArcAfter (mx n : Nat) (s : ArcSys α) : Prop := ∃ m, m ≤ 3 * n ∧ ArcReaches mx True m s ∧ s.Unlent

theorem ArcUse.after (h : ArcAfter mx n s) (hu : ArcUse mx s s') : ArcAfter mx (n + 1) s' ∧ HandsGrow s.hands s'.hands := by
  obtain ⟨m, hm, ⟨k, hr⟩, hl⟩ := h
  cases hu with
  | step h1 h2 => exact ⟨⟨m + 1, by omega, ⟨k, .tail hr h1⟩, h2⟩, h1.grow⟩
  | call t cmd ht hc hh hk h1 h2 =>
    exact ⟨⟨m + 1 + _, by omega, ⟨k, h1.steps (.tail hr (.borrow t cmd ht hc hh))⟩, h2⟩, h1.adds.grow⟩

theorem arcThings_good : (arcThings (α := α) mx).Good (ArcAfter mx) (mx / 3) where
  lt := fun _ h => isThere_lt h
  use := by
    intro n s s' h _ hu
    obtain ⟨a, b⟩ := hu.after h
    exact ⟨a, b.len, b.old⟩
  fresh := by
    intro n s s' h _ hu
    exact (hu.after h).2.new
  drop := by
    intro n s x h hb hx
    obtain ⟨m, hm, hr, hl⟩ := h
    obtain ⟨p, hp⟩ := isThere_iff.mp hx
    have I := ArcInv.reaches hr (by omega)
    obtain ⟨o, ho⟩ := I.exists_obj (Or.inl (ArcInv.own_pos_of_hand hp))
    refine ⟨{ s with hands := s.hands.set x none, threads := s.threads ++ [some (.drop0 p)] }, ?_, ⟨m + 1, by omega, ?_, ?_⟩, ?_, ?_⟩
    · simp only [arcThings, hp]
    · obtain ⟨k, hk⟩ := hr.more
      refine ⟨k, .tail hk ?_⟩
      have := ArcStep.take (mx := mx) (calm := True) (s := s.more) s.threads.length (.drop x) (by simp [ArcSys.more]) rfl hp ho (by
        intro t op ht
        simp only [ArcSys.more, List.getElem?_append] at ht
        split at ht
        · exact hl x t op ht
        · cases e : t - s.threads.length <;> simp [e] at ht)
      simpa [ArcSys.more] using this
    · intro h t op ht
      simp only [List.getElem?_append] at ht
      split at ht
      · exact hl h t op ht
      · cases e : t - s.threads.length <;> simp [e] at ht
        subst ht; rfl
    · simp [arcThings]
    · intro y
      exact isThere_set

end Lokky
